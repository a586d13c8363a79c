import Verif.Proofs.Window
import Verif.Spec.Chain
/-
The discretised problem stage by stage.
-/
namespace Nosnoc

section
variable {po : PreOpts} {d : Dims} {um : UserModel} {uo : UserOcp} {env : Env} {a n N k : Nat}

theorem window_window {b : Nat} (hn : 0 < n) (hb : a + b ≤ n) :
    (po.window 0 n).window a b = po.window a b := by
  have h1 : (n : ℝ) ≠ 0 := by
    have : n ≠ 0 := by omega
    exact_mod_cast this
  have ht : po.terminalTime / po.nStages * n / n * b = po.terminalTime / po.nStages * b := by
    rw [mul_div_assoc, div_self h1, mul_one]
  have hl : (((po.nfeList.drop 0).take n).drop a).take b = (po.nfeList.drop a).take b := by
    rw [List.drop_zero, List.drop_take, List.take_take, min_eq_left (by omega)]
  unfold PreOpts.window
  dsimp only
  rw [ht, hl]

theorem window_full (hN : 0 < po.nStages) (hl : po.nfeList.length = po.nStages) : po.window 0 po.nStages = po := by
  have h1 : (po.nStages : ℝ) ≠ 0 := by
    have : po.nStages ≠ 0 := by omega
    exact_mod_cast this
  unfold PreOpts.window
  rw [div_mul_cancel₀ _ h1, List.drop_zero, ← hl, List.take_length, hl]

theorem windowEnv_window (ha : a < n) : windowEnv (po.window 0 n) a env = windowEnv po a env := by
  funext s
  have hp : prevFe (po.window 0 n) a 0 = prevFe po a 0 := by
    unfold prevFe
    split
    · rfl
    · split
      · rw [window_nfe (by omega)]; rfl
      · rfl
  cases s with
  | x0 i =>
    simp only [windowEnv, startX, hp]
    cases prevFe po a 0 with
    | none => rfl
    | some q => rfl
  | lam00 f s i =>
    simp only [windowEnv, hp]
    cases hq : prevFe po a 0 with
    | none => rfl
    | some q =>
      obtain ⟨k, e⟩ := q
      have hk : k < n := by
        unfold prevFe at hq
        split at hq
        · omega
        · split at hq
          · injection hq with hq; injection hq with h1 h2; omega
          · cases hq
      simp only [window_lastLam hk, Nat.add_zero]
  | _ => rfl

/-- The conditions of the whole problem follow from those of the single stages. -/
theorem FeasibleSpec.stages (hN : 0 < po.nStages) (hl : po.nfeList.length = po.nStages)
    (hq : po.useFesd = true → po.equidistant = true) (ht : po.timeFreezing = false)
    (H : ∀ k < po.nStages, FeasibleSpec (po.window k 1) d um uo.noTerminal (windowEnv po k env)) :
    FeasibleSpec po d um uo.noTerminal env := by
  have key : ∀ n, 0 < n → n ≤ po.nStages → FeasibleSpec (po.window 0 n) d um uo.noTerminal env := by
    intro n hn
    induction n with
    | zero => omega
    | succ n ih =>
      intro hle
      rcases Nat.eq_zero_or_pos n with rfl | hn0
      · have := H 0 hN
        rwa [windowEnv_zero] at this
      · refine FeasibleSpec.join (a := n) (b := 1) (uo := uo.noTerminal) ?_ ?_ hn0 Nat.one_pos rfl hq ht
        · rw [window_window (by omega) (by omega)]
          exact ih hn0 (by omega)
        · rw [window_window (by omega) (by omega), windowEnv_window (by omega)]
          exact H n (by omega)
  have := key po.nStages hN le_rfl
  rwa [window_full hN hl] at this

theorem repeated_window (hN : 0 < N) (hb : a + n ≤ N) : (po.repeated N).window a n = po.repeated n := by
  have h1 : (N : ℝ) ≠ 0 := by
    have : N ≠ 0 := by omega
    exact_mod_cast this
  have ht : po.terminalTime * N / N * n = po.terminalTime * n := by
    rw [mul_div_assoc, div_self h1, mul_one]
  have hl : ((List.replicate N (po.nfeList.headD 0)).drop a).take n = List.replicate n (po.nfeList.headD 0) := by
    rw [List.drop_replicate, List.take_replicate, min_eq_left (by omega)]
  unfold PreOpts.repeated PreOpts.window
  dsimp only
  rw [ht, hl]

theorem repeated_one (h1 : po.nStages = 1) (hl : po.nfeList.length = 1) : po.repeated 1 = po := by
  obtain ⟨x, hx⟩ := List.length_eq_one_iff.1 hl
  unfold PreOpts.repeated
  rw [Nat.cast_one, mul_one, hx]
  have : List.replicate 1 (List.headD [x] 0) = po.nfeList := by rw [hx]; rfl
  rw [this, ← h1]

theorem repeated_nfe (hk : k < N) (hl : po.nfeList.length = 1) : nfe (po.repeated N) k = nfe po 0 := by
  obtain ⟨x, hx⟩ := List.length_eq_one_iff.1 hl
  simp [nfe, PreOpts.repeated, hx, List.getD_eq_getElem?_getD, hk]

end
end Nosnoc
