import Verif.Spec.Window
import Mathlib.Tactic.FieldSimp
/-
The discretised problem over a part of the horizon.
-/
namespace Nosnoc

section
variable {po : PreOpts} {d : Dims} {um : UserModel} {uo : UserOcp} {env : Env} {a n k : Nat}

theorem window_nfe (hk : k < n) : nfe (po.window a n) k = nfe po (k + a) := by
  simp [nfe, PreOpts.window, List.getD_eq_getElem?_getD, List.getElem?_take, List.getElem?_drop, hk,
    Nat.add_comm a k]

theorem window_hasFE {e : Nat} (hn : a + n ≤ po.nStages) :
    HasFE (po.window a n) k e ↔ k < n ∧ HasFE po (k + a) e := by
  constructor
  · rintro ⟨h1, h2⟩
    have hk : k < n := h1
    rw [window_nfe hk] at h2
    exact ⟨hk, by omega, h2⟩
  · rintro ⟨hk, -, h2⟩
    exact ⟨hk, by rw [window_nfe hk]; exact h2⟩

theorem window_nominalH (hk : k < n) : nominalH (po.window a n) k = nominalH po (k + a) := by
  unfold nominalH
  rw [window_nfe hk]
  have : (n : ℝ) ≠ 0 := by
    have : n ≠ 0 := by omega
    exact_mod_cast this
  show po.terminalTime / po.nStages * n / n / _ = _
  rw [mul_div_assoc, div_self this, mul_one]

theorem window_hVal {e : Nat} (hk : k < n) :
    hVal (po.window a n) k e (windowEnv po a env) = hVal po (k + a) e env := by
  unfold hVal
  rw [window_nominalH hk]
  show (if po.useFesd then var (.h k e) else _) _ = _
  split <;> rfl

theorem window_sotVal : sotVal (po.window a n) k (windowEnv po a env) = sotVal po (k + a) env := by
  unfold sotVal
  show (if po.sot = .local then var (.sot k) else _) _ = _
  split <;> rfl

theorem window_extraPt {e : Nat} (hk : k < n) : extraPt (po.window a n) k e = extraPt po (k + a) e := by
  unfold extraPt
  rw [window_nfe hk]
  rfl

theorem window_lastLam {e : Nat} (hk : k < n) : lastLam (po.window a n) k e = lastLam po (k + a) e := by
  unfold lastLam
  rw [window_extraPt hk]
  rfl

theorem window_nLamPts {e : Nat} (hk : k < n) : nLamPts (po.window a n) k e = nLamPts po (k + a) e := by
  unfold nLamPts
  rw [window_extraPt hk]
  rfl

theorem window_endX {e i : Nat} :
    windowEnv po a env (endX (po.window a n) k e i) = env (endX po (k + a) e i) := by
  unfold endX
  show windowEnv po a env (if ownEnd po then _ else _) = _
  split <;> rfl

theorem window_startX {e i : Nat} (hk : k < n) :
    windowEnv po a env (startX (po.window a n) k e i) = env (startX po (k + a) e i) := by
  by_cases he : 0 < e
  · simp only [startX, prevFe, if_pos he]
    exact window_endX
  by_cases h0 : 0 < k
  · have h1 : k - 1 + a = k + a - 1 := by omega
    have h2 : 0 < k + a := by omega
    simp only [startX, prevFe, if_neg he, if_pos h0, if_pos h2]
    rw [window_endX, window_nfe (by omega), h1]
  · obtain rfl : e = 0 := by omega
    obtain rfl : k = 0 := by omega
    rw [Nat.zero_add]
    rfl

theorem window_lamAt {e j : Nat} (q : Pair) : lamAt k e j (windowEnv po a env) q = lamAt (k + a) e j env q := by
  cases q <;> rfl

theorem window_thetaAt {e j : Nat} (q : Pair) :
    thetaAt k e j (windowEnv po a env) q = thetaAt (k + a) e j env q := by
  cases q <;> rfl

theorem window_lamStart {e : Nat} (hk : k < n) (q : Pair) :
    lamStart (po.window a n) k e (windowEnv po a env) q = lamStart po (k + a) e env q := by
  by_cases he : 0 < e
  · simp only [lamStart, prevFe, if_pos he]
    rw [window_lamAt, window_lastLam hk]
  by_cases h0 : 0 < k
  · have h1 : k - 1 + a = k + a - 1 := by omega
    have h2 : 0 < k + a := by omega
    simp only [lamStart, prevFe, if_neg he, if_pos h0, if_pos h2]
    rw [window_lamAt, window_lastLam (by omega), window_nfe (by omega), h1]
  · obtain rfl : e = 0 := by omega
    obtain rfl : k = 0 := by omega
    rw [Nat.zero_add]
    simp only [lamStart]
    show lam00At (windowEnv po a env) q = _
    cases q <;> simp only [lam00At, windowEnv] <;> cases prevFe po a 0 <;> rfl

theorem window_sumLam {e : Nat} (hk : k < n) (q : Pair) :
    sumLam (po.window a n) k e (windowEnv po a env) q = sumLam po (k + a) e env q := by
  unfold sumLam
  rw [window_lamStart hk, window_nLamPts hk]
  simp only [window_lamAt]

theorem window_sumTheta {e : Nat} (q : Pair) :
    sumTheta (po.window a n) k e (windowEnv po a env) q = sumTheta po (k + a) e env q := by
  unfold sumTheta
  simp only [window_thetaAt]
  rfl

theorem window_nuOf {e : Nat} (hk : k < n) :
    nuOf (po.window a n) d k e (windowEnv po a env) = nuOf po d (k + a) e env := by
  unfold nuOf
  simp only [window_sumLam hk, window_sumTheta]
  rfl

theorem window_xVal {e j : Nat} (hk : k < n) :
    xVal (po.window a n) d k e j (windowEnv po a env) = xVal po d (k + a) e j env := by
  unfold xVal stageX evalVec
  show List.map _ (if po.irkRep = .differential then _ else _) = _
  split
  · simp only [List.map_map]
    refine List.map_congr_left fun i _ => ?_
    simp only [Function.comp_apply]
    rw [window_startX hk, window_hVal hk]
    rfl
  · simp only [vars, blk, List.map_map]
    rfl

theorem window_xEndVal {e : Nat} :
    xEndVal (po.window a n) d k e (windowEnv po a env) = xEndVal po d (k + a) e env := by
  unfold xEndVal
  simp only [window_endX]

theorem window_zVal {e j : Nat} : zVal d k e j (windowEnv po a env) = zVal d (k + a) e j env := rfl
theorem window_uVal : uVal d k (windowEnv po a env) = uVal d (k + a) env := rfl
theorem window_pVal : pVal d k (windowEnv po a env) = pVal d (k + a) env := rfl
theorem window_vVal : vVal d (windowEnv po a env) = vVal d env := rfl

theorem window_alphaVal {e j : Nat} :
    alphaVal (po.window a n) d k e j (windowEnv po a env) = alphaVal po d (k + a) e j env := by
  unfold alphaVal rowSyms
  simp only [List.map_flatMap, blk, List.map_map]
  rfl

theorem window_stageRhs {e j i : Nat} (hk : k < n) :
    um.stageRhs (po.window a n) d k e j i (windowEnv po a env) = um.stageRhs po d (k + a) e j i env := by
  unfold UserModel.stageRhs
  rw [window_xVal hk, window_alphaVal]
  rfl

theorem window_switching {e jl : Nat} {x z p : List ℝ} :
    um.Switching (po.window a n) k e jl x z p (windowEnv po a env) ↔ um.Switching po (k + a) e jl x z p env :=
  Iff.rfl

theorem window_algebraic {e j : Nat} {x : List ℝ} :
    um.Algebraic (po.window a n) d k e j x (windowEnv po a env) ↔ um.Algebraic po d (k + a) e j x env :=
  Iff.rfl

theorem window_rkEq {e j i : Nat} (hk : k < n) :
    RkEq um (po.window a n) d k e j i (windowEnv po a env) ↔ RkEq um po d (k + a) e j i env := by
  unfold RkEq
  rw [window_stageRhs hk, window_hVal hk, window_sotVal, window_startX hk]
  rfl

theorem window_liftEq {e j i : Nat} (hk : k < n) :
    LiftEq (po.window a n) k e j i (windowEnv po a env) ↔ LiftEq po (k + a) e j i env := by
  unfold LiftEq
  rw [window_hVal hk, window_startX hk]
  rfl

theorem window_endEq {e i : Nat} (hk : k < n) :
    EndEq (po.window a n) k e i (windowEnv po a env) ↔ EndEq po (k + a) e i env := by
  unfold EndEq
  rw [window_hVal hk, window_startX hk]
  rfl

theorem window_pathSat {x : List ℝ} : PathSat uo d k x (windowEnv po a env) ↔ PathSat uo d (k + a) x env := Iff.rfl

theorem window_compl {xs : List ℝ} {y : ℝ} :
    Compl (po.window a n) (windowEnv po a env) xs y ↔ Compl po env xs y := Iff.rfl

theorem window_len (hn : 0 < n) :
    (po.window a n).terminalTime / (po.window a n).nStages = po.terminalTime / po.nStages := by
  have : (n : ℝ) ≠ 0 := by
    have : n ≠ 0 := by omega
    exact_mod_cast this
  show po.terminalTime / po.nStages * n / n = _
  rw [mul_div_assoc, div_self this, mul_one]

/-- The symbol of the whole problem a symbol of the window stands for. -/
def shiftSym (a : Nat) : Sym → Sym
  | .u k i => .u (k + a) i
  | .sot k => .sot (k + a)
  | .h k e => .h (k + a) e
  | .st1 f k e j i => .st1 f (k + a) e j i
  | .st2 f k e j s i => .st2 f (k + a) e j s i
  | .xEnd k e i => .xEnd (k + a) e i
  | t => t

/-- Stage of a variable. -/
def InWindow (n : Nat) : Sym → Prop
  | .u k _ => k < n
  | .sot k => k < n
  | .h k _ => k < n
  | .st1 _ k _ _ _ => k < n
  | .st2 _ k _ _ _ _ => k < n
  | .xEnd k _ _ => k < n
  | _ => True

theorem window_isVar {s : Sym} (hn : a + n ≤ po.nStages) (hs : InWindow n s) :
    IsVar (po.window a n) d s ↔ IsVar po d (shiftSym a s) := by
  cases s with
  | u k i =>
    have hk : k < n := hs
    exact and_congr ⟨fun _ => by omega, fun _ => hk⟩ Iff.rfl
  | sot k =>
    have hk : k < n := hs
    exact and_congr Iff.rfl ⟨fun _ => by omega, fun _ => hk⟩
  | h k e =>
    exact and_congr Iff.rfl ((window_hasFE hn).trans (and_iff_right hs))
  | st1 f k e j i =>
    have := (window_hasFE (k := k) (e := e) hn).trans (and_iff_right hs)
    cases f
    · exact and_congr Iff.rfl (and_congr this Iff.rfl)
    · exact and_congr Iff.rfl (and_congr this Iff.rfl)
    · exact and_congr this Iff.rfl
  | st2 f k e j s i =>
    have h1 := (window_hasFE (k := k) (e := e) hn).trans (and_iff_right hs)
    have h2 : j < nLamPts (po.window a n) k e ↔ j < nLamPts po (k + a) e := by
      rw [window_nLamPts hs]
    cases f
    · exact and_congr Iff.rfl (and_congr h1 Iff.rfl)
    · exact and_congr Iff.rfl (and_congr h1 (and_congr h2 Iff.rfl))
    · exact and_congr Iff.rfl (and_congr h1 (and_congr h2 Iff.rfl))
    · exact and_congr Iff.rfl (and_congr h1 Iff.rfl)
    · exact and_congr Iff.rfl (and_congr h1 (and_congr h2 Iff.rfl))
    · exact and_congr Iff.rfl (and_congr h1 (and_congr h2 Iff.rfl))
  | xEnd k e i =>
    exact and_congr Iff.rfl (and_congr ((window_hasFE hn).trans (and_iff_right hs)) Iff.rfl)
  | _ => exact Iff.rfl

theorem window_varDoc {s : Sym} (hs : InWindow n s) :
    (varDoc (po.window a n) um uo s).lb = (varDoc po um uo (shiftSym a s)).lb ∧
    (varDoc (po.window a n) um uo s).ub = (varDoc po um uo (shiftSym a s)).ub := by
  cases s with
  | h k e =>
    have hk : k < n := hs
    simp only [varDoc, shiftSym, window_nominalH hk]
    exact ⟨rfl, rfl⟩
  | st1 f k e j i => cases f <;> exact ⟨rfl, rfl⟩
  | st2 f k e j s i => cases f <;> exact ⟨rfl, rfl⟩
  | _ => exact ⟨rfl, rfl⟩

theorem isVar_inWindow {s : Sym} (h : IsVar po d s) : InWindow po.nStages s := by
  cases s with
  | u k i => exact h.1
  | sot k => exact h.2
  | h k e => exact h.2.1
  | st1 f k e j i =>
    cases f
    · exact h.2.1.1
    · exact h.2.1.1
    · exact h.1.1
  | st2 f k e j s i => cases f <;> exact h.2.1.1
  | xEnd k e i => exact h.2.1.1
  | _ => exact trivial

theorem windowEnv_shift {s : Sym} (h : IsVar po d (shiftSym a s)) :
    windowEnv po a env s = env (shiftSym a s) := by
  cases s with
  | pStage | x0 | lam00 => exact absurd h (by simp [IsVar, shiftSym])
  | _ => rfl

/-- The conditions of a window follow from those of the whole problem. -/
theorem FeasibleSpec.window (S : FeasibleSpec po d um uo env) (hn : 0 < n) (ha : a + n ≤ po.nStages)
    (hq : po.useFesd = true → po.equidistant = true) (ht : po.timeFreezing = false)
    (hg : ∀ i < d.nPgl, env (.pStage a (d.nPtv + i)) = env (.pStage 0 (d.nPtv + i)))
    (hl : a + n = po.nStages ∨ uo.nGTerminal = 0) :
    FeasibleSpec (po.window a n) d um uo (windowEnv po a env) where
  bounds := by
    intro s hs
    have hw : InWindow n s := isVar_inWindow hs
    have hs' := (window_isVar ha hw).1 hs
    rw [(window_varDoc (a := a) hw).1, (window_varDoc (a := a) hw).2, windowEnv_shift hs']
    exact S.bounds _ hs'
  alg := by
    intro k e hk j hj
    obtain ⟨hk', hk⟩ := (window_hasFE ha).1 hk
    rw [window_xVal hk', window_algebraic]
    exact S.alg _ e hk j hj
  rk := by
    intro k e hk j hj i hi
    obtain ⟨hk', hk⟩ := (window_hasFE ha).1 hk
    exact (window_rkEq hk').2 (S.rk _ e hk j hj i hi)
  lift := by
    intro hr k e hk j hj i hi
    obtain ⟨hk', hk⟩ := (window_hasFE ha).1 hk
    exact (window_liftEq hk').2 (S.lift hr _ e hk j hj i hi)
  cont := by
    intro hr k e hk i hi
    obtain ⟨hk', hk⟩ := (window_hasFE ha).1 hk
    exact (window_endEq hk').2 (S.cont hr _ e hk i hi)
  boundary := by
    intro h1 h2 k e hk
    obtain ⟨hk', hk⟩ := (window_hasFE ha).1 hk
    rw [window_xEndVal, window_switching, window_lastLam hk']
    exact S.boundary h1 h2 _ e hk
  pathEnd := by
    intro k e hk he
    obtain ⟨hk', hk⟩ := (window_hasFE ha).1 hk
    rw [window_nfe hk'] at he
    rw [window_xEndVal, window_xVal hk', window_pathSat]
    exact S.pathEnd _ e hk he
  pathStage := by
    intro hr k e hk j hj
    obtain ⟨hk', hk⟩ := (window_hasFE ha).1 hk
    rw [window_xVal hk', window_pathSat]
    exact S.pathStage hr _ e hk j hj
  stageComp := by
    intro k e hk j hj r hr
    obtain ⟨hk', hk⟩ := (window_hasFE ha).1 hk
    rw [window_xVal hk']
    exact S.stageComp _ e hk j hj r hr
  ctrlComp := by
    intro k e hk he r hr
    obtain ⟨hk', hk⟩ := (window_hasFE ha).1 hk
    exact S.ctrlComp _ e hk he r hr
  globComp := by
    intro r hr
    have : pGlobVal d 0 (windowEnv po a env) = pGlobVal d 0 env := by
      refine List.map_congr_left fun i hi => ?_
      show env (.pStage (0 + a) _) = _
      rw [Nat.zero_add]
      exact hg i (List.mem_range.1 hi)
    rw [this]
    exact S.globComp r hr
  compStd := by
    intro hu k e hk j hj q hq
    obtain ⟨hk', hk⟩ := (window_hasFE ha).1 hk
    rw [window_lamAt, window_thetaAt]
    exact S.compStd hu _ e hk j hj q hq
  compAll := by
    intro hu hc k e hk j hj q hq
    obtain ⟨hk', hk⟩ := (window_hasFE ha).1 hk
    rw [window_lamStart hk', window_thetaAt]
    simp only [window_lamAt]
    exact S.compAll hu hc _ e hk j hj q hq
  compSum := by
    intro hu hc k e hk j hj q hq
    obtain ⟨hk', hk⟩ := (window_hasFE ha).1 hk
    rw [window_lamStart hk', window_thetaAt, window_nLamPts hk']
    simp only [window_lamAt]
    exact S.compSum hu hc _ e hk j hj q hq
  stepDirect := by
    intro hu hs k e hk he
    obtain ⟨hk', hk⟩ := (window_hasFE ha).1 hk
    rw [window_nuOf hk', window_hVal hk', window_hVal hk']
    exact S.stepDirect hu hs _ e hk he
  stepDirectComp := by
    intro hu hs k e hk he
    obtain ⟨hk', hk⟩ := (window_hasFE ha).1 hk
    rw [window_nuOf hk', window_hVal hk', window_hVal hk']
    exact S.stepDirectComp hu hs _ e hk he
  stepHComp := by
    intro hu hs k e hk he
    obtain ⟨hk', hk⟩ := (window_hasFE ha).1 hk
    rw [window_hVal hk', window_hVal hk']
    exact S.stepHComp hu hs _ e hk he
  equi := by
    intro hu he k hk
    have hk' : k < n := hk
    rw [window_nfe hk', window_len hn]
    simp only [window_hVal hk']
    exact S.equi hu he (k + a) (by omega)
  time := by
    intro _ hu he
    have : po.equidistant = false := he
    rw [hq hu] at this
    cases this
  freeze := by
    intro t _ hf
    have : po.timeFreezing = true := hf
    rw [ht] at this
    cases this
  term := by
    intro i hi
    rcases hl with hl | hl
    · have h1 : n - 1 < n := by omega
      have h2 : n - 1 + a = po.nStages - 1 := by omega
      show uo.gTerminal i (xEndVal (po.window a n) d (n - 1) (nfe (po.window a n) (n - 1) - 1) _)
        (pVal d (n - 1) _) _ = 0
      rw [window_nfe h1, window_xEndVal, window_pVal, window_vVal, h2]
      exact S.term i hi
    · omega

/-- Which stage a variable of the whole problem belongs to. -/
theorem split_sym (a : Nat) (s : Sym) : InWindow a s ∨ ∃ t, shiftSym a t = s ∧
    ∀ N, a ≤ N → InWindow N s → InWindow (N - a) t := by
  have key : ∀ k, k < a ∨ ∃ l, l + a = k ∧ ∀ N, a ≤ N → k < N → l < N - a := by
    intro k
    rcases Nat.lt_or_ge k a with h | h
    · exact .inl h
    · exact .inr ⟨k - a, by omega, fun N _ _ => by omega⟩
  cases s with
  | u k i => rcases key k with h | ⟨l, rfl, h⟩
             · exact .inl h
             · exact .inr ⟨.u l i, rfl, h⟩
  | sot k => rcases key k with h | ⟨l, rfl, h⟩
             · exact .inl h
             · exact .inr ⟨.sot l, rfl, h⟩
  | h k e => rcases key k with h | ⟨l, rfl, h⟩
             · exact .inl h
             · exact .inr ⟨.h l e, rfl, h⟩
  | st1 f k e j i => rcases key k with h | ⟨l, rfl, h⟩
                     · exact .inl h
                     · exact .inr ⟨.st1 f l e j i, rfl, h⟩
  | st2 f k e j s i => rcases key k with h | ⟨l, rfl, h⟩
                       · exact .inl h
                       · exact .inr ⟨.st2 f l e j s i, rfl, h⟩
  | xEnd k e i => rcases key k with h | ⟨l, rfl, h⟩
                  · exact .inl h
                  · exact .inr ⟨.xEnd l e i, rfl, h⟩
  | _ => exact .inl trivial

theorem shiftSym_zero (s : Sym) : shiftSym 0 s = s := by cases s <;> rfl

/-- Nothing is shifted in the window that begins at the beginning. -/
theorem windowEnv_zero : windowEnv po 0 env = env := by
  funext s
  cases s <;> rfl

/-- The conditions of both windows give those of the whole problem. -/
theorem FeasibleSpec.join {b : Nat} (S1 : FeasibleSpec (po.window 0 a) d um uo.noTerminal env)
    (S2 : FeasibleSpec (po.window a b) d um uo (windowEnv po a env)) (ha : 0 < a) (hb : 0 < b)
    (hN : a + b = po.nStages) (hq : po.useFesd = true → po.equidistant = true)
    (ht : po.timeFreezing = false) : FeasibleSpec po d um uo env := by
  rw [← windowEnv_zero (po := po) (env := env)] at S1
  have hN1 : 0 + a ≤ po.nStages := by omega
  have hN2 : a + b ≤ po.nStages := hN.le
  have fe1 : ∀ {k e}, HasFE po k e → k < a → HasFE (po.window 0 a) k e := fun h hk =>
    (window_hasFE hN1).2 ⟨hk, h⟩
  have fe2 : ∀ {k e}, HasFE po k e → ¬ k < a → ∃ l, l < b ∧ k = l + a ∧ HasFE (po.window a b) l e := by
    intro k e h hk
    have h1 : k - a + a = k := by omega
    have h2 : k - a < b := by have := h.1; omega
    exact ⟨k - a, h2, h1.symm, (window_hasFE hN2).2 ⟨h2, by rw [h1]; exact h⟩⟩
  refine
    { bounds := ?_, alg := ?_, rk := ?_, lift := ?_, cont := ?_, boundary := ?_, pathEnd := ?_,
      pathStage := ?_, stageComp := ?_, ctrlComp := ?_, globComp := ?_, compStd := ?_, compAll := ?_,
      compSum := ?_, stepDirect := ?_, stepDirectComp := ?_, stepHComp := ?_, equi := ?_, time := ?_,
      freeze := ?_, term := ?_ }
  · intro s hs
    have hw := isVar_inWindow hs
    rcases split_sym a s with h | ⟨t, rfl, h⟩
    · have hs0 : IsVar po d (shiftSym 0 s) := by rw [shiftSym_zero]; exact hs
      have := S1.bounds s ((window_isVar hN1 h).2 hs0)
      rw [(window_varDoc (a := 0) h).1, (window_varDoc (a := 0) h).2, windowEnv_zero, shiftSym_zero] at this
      cases s with
      | st1 f k e j i => cases f <;> exact this
      | st2 f k e j s i => cases f <;> exact this
      | _ => exact this
    · have h' : InWindow b t := by
        have := h po.nStages (by omega) hw
        rwa [show po.nStages - a = b by omega] at this
      have := S2.bounds t ((window_isVar hN2 h').2 hs)
      rwa [(window_varDoc (a := a) h').1, (window_varDoc (a := a) h').2, windowEnv_shift hs] at this
  · intro k e hk j hj
    by_cases h : k < a
    · have := S1.alg k e (fe1 hk h) j hj
      rwa [window_xVal h, window_algebraic] at this
    · obtain ⟨l, hl, rfl, hkw⟩ := fe2 hk h
      have := S2.alg l e hkw j hj
      rwa [window_xVal hl, window_algebraic] at this
  · intro k e hk j hj i hi
    by_cases h : k < a
    · exact (window_rkEq h).1 (S1.rk k e (fe1 hk h) j hj i hi)
    · obtain ⟨l, hl, rfl, hkw⟩ := fe2 hk h
      exact (window_rkEq hl).1 (S2.rk l e hkw j hj i hi)
  · intro hr k e hk j hj i hi
    by_cases h : k < a
    · exact (window_liftEq h).1 (S1.lift hr k e (fe1 hk h) j hj i hi)
    · obtain ⟨l, hl, rfl, hkw⟩ := fe2 hk h
      exact (window_liftEq hl).1 (S2.lift hr l e hkw j hj i hi)
  · intro hr k e hk i hi
    by_cases h : k < a
    · exact (window_endEq h).1 (S1.cont hr k e (fe1 hk h) i hi)
    · obtain ⟨l, hl, rfl, hkw⟩ := fe2 hk h
      exact (window_endEq hl).1 (S2.cont hr l e hkw i hi)
  · intro h1 h2 k e hk
    by_cases h : k < a
    · have := S1.boundary h1 h2 k e (fe1 hk h)
      rwa [window_xEndVal, window_switching, window_lastLam h] at this
    · obtain ⟨l, hl, rfl, hkw⟩ := fe2 hk h
      have := S2.boundary h1 h2 l e hkw
      rwa [window_xEndVal, window_switching, window_lastLam hl] at this
  · intro k e hk he
    by_cases h : k < a
    · have := S1.pathEnd k e (fe1 hk h) (by rw [window_nfe h]; exact he)
      rw [window_xEndVal, window_xVal h, window_pathSat] at this
      exact this
    · obtain ⟨l, hl, rfl, hkw⟩ := fe2 hk h
      have := S2.pathEnd l e hkw (by rw [window_nfe hl]; exact he)
      rw [window_xEndVal, window_xVal hl, window_pathSat] at this
      exact this
  · intro hr k e hk j hj
    by_cases h : k < a
    · have := S1.pathStage hr k e (fe1 hk h) j hj
      rw [window_xVal h, window_pathSat] at this
      exact this
    · obtain ⟨l, hl, rfl, hkw⟩ := fe2 hk h
      have := S2.pathStage hr l e hkw j hj
      rw [window_xVal hl, window_pathSat] at this
      exact this
  · intro k e hk j hj r hr
    by_cases h : k < a
    · have := S1.stageComp k e (fe1 hk h) j hj r hr
      rw [window_xVal h] at this
      exact this
    · obtain ⟨l, hl, rfl, hkw⟩ := fe2 hk h
      have := S2.stageComp l e hkw j hj r hr
      rw [window_xVal hl] at this
      exact this
  · intro k e hk he r hr
    by_cases h : k < a
    · exact S1.ctrlComp k e (fe1 hk h) he r hr
    · obtain ⟨l, hl, rfl, hkw⟩ := fe2 hk h
      exact S2.ctrlComp l e hkw he r hr
  · intro r hr
    exact S1.globComp r hr
  · intro hu k e hk j hj q hq
    by_cases h : k < a
    · have := S1.compStd hu k e (fe1 hk h) j hj q hq
      rw [window_lamAt, window_thetaAt] at this
      exact this
    · obtain ⟨l, hl, rfl, hkw⟩ := fe2 hk h
      have := S2.compStd hu l e hkw j hj q hq
      rw [window_lamAt, window_thetaAt] at this
      exact this
  · intro hu hc k e hk j hj q hq
    by_cases h : k < a
    · have := S1.compAll hu hc k e (fe1 hk h) j hj q hq
      rw [window_lamStart h, window_thetaAt] at this
      simp only [window_lamAt] at this
      exact this
    · obtain ⟨l, hl, rfl, hkw⟩ := fe2 hk h
      have := S2.compAll hu hc l e hkw j hj q hq
      rw [window_lamStart hl, window_thetaAt] at this
      simp only [window_lamAt] at this
      exact this
  · intro hu hc k e hk j hj q hq
    by_cases h : k < a
    · have := S1.compSum hu hc k e (fe1 hk h) j hj q hq
      rw [window_lamStart h, window_thetaAt, window_nLamPts h] at this
      simp only [window_lamAt] at this
      exact this
    · obtain ⟨l, hl, rfl, hkw⟩ := fe2 hk h
      have := S2.compSum hu hc l e hkw j hj q hq
      rw [window_lamStart hl, window_thetaAt, window_nLamPts hl] at this
      simp only [window_lamAt] at this
      exact this
  · intro hu hs k e hk he
    by_cases h : k < a
    · have := S1.stepDirect hu hs k e (fe1 hk h) he
      rwa [window_nuOf h, window_hVal h, window_hVal h] at this
    · obtain ⟨l, hl, rfl, hkw⟩ := fe2 hk h
      have := S2.stepDirect hu hs l e hkw he
      rwa [window_nuOf hl, window_hVal hl, window_hVal hl] at this
  · intro hu hs k e hk he
    by_cases h : k < a
    · have := S1.stepDirectComp hu hs k e (fe1 hk h) he
      rw [window_nuOf h, window_hVal h, window_hVal h] at this
      exact this
    · obtain ⟨l, hl, rfl, hkw⟩ := fe2 hk h
      have := S2.stepDirectComp hu hs l e hkw he
      rw [window_nuOf hl, window_hVal hl, window_hVal hl] at this
      exact this
  · intro hu hs k e hk he
    by_cases h : k < a
    · have := S1.stepHComp hu hs k e (fe1 hk h) he
      rw [window_hVal h, window_hVal h] at this
      exact this
    · obtain ⟨l, hl, rfl, hkw⟩ := fe2 hk h
      have := S2.stepHComp hu hs l e hkw he
      rw [window_hVal hl, window_hVal hl] at this
      exact this
  · intro hu he k hk
    by_cases h : k < a
    · have := S1.equi hu he k h
      rw [window_nfe h, window_len ha] at this
      simp only [window_hVal h] at this
      exact this
    · obtain ⟨l, hl⟩ : ∃ l, k = l + a := ⟨k - a, by omega⟩
      subst hl
      have hl : l < b := by omega
      have := S2.equi hu he l hl
      rw [window_nfe hl, window_len hb] at this
      simp only [window_hVal hl] at this
      exact this
  · intro _ hu he
    rw [hq hu] at he
    cases he
  · intro t _ hf
    rw [ht] at hf
    cases hf
  · intro i hi
    have := S2.term i hi
    have h1 : b - 1 < b := by omega
    have h2 : b - 1 + a = po.nStages - 1 := by omega
    replace this : uo.gTerminal i (xEndVal (po.window a b) d (b - 1) (nfe (po.window a b) (b - 1) - 1)
      (windowEnv po a env)) (pVal d (b - 1) (windowEnv po a env)) (vVal d (windowEnv po a env)) = 0 := this
    rwa [window_nfe h1, window_xEndVal, window_pVal, window_vVal, h2] at this

theorem FeasibleSpec.dropTerminal (S : FeasibleSpec po d um uo env) :
    FeasibleSpec po d um uo.noTerminal env where
  bounds := fun s hs => by
    have := S.bounds s hs
    cases s with
    | st1 f k e j i => cases f <;> exact this
    | st2 f k e j s i => cases f <;> exact this
    | _ => exact this
  alg := S.alg
  rk := S.rk
  lift := S.lift
  cont := S.cont
  boundary := S.boundary
  pathEnd := S.pathEnd
  pathStage := S.pathStage
  stageComp := S.stageComp
  ctrlComp := S.ctrlComp
  globComp := S.globComp
  compStd := S.compStd
  compAll := S.compAll
  compSum := S.compSum
  stepDirect := S.stepDirect
  stepDirectComp := S.stepDirectComp
  stepHComp := S.stepHComp
  equi := S.equi
  time := S.time
  freeze := S.freeze
  term := fun _ hi => absurd hi (Nat.not_lt_zero _)

/-- The objectives of the two parts add up. -/
theorem window_objective {b : Nat} (ha : 0 < a) (hb : 0 < b) (hN : a + b = po.nStages) :
    plainObjective po d uo env = plainObjective (po.window 0 a) d uo.noTerminal env
      + plainObjective (po.window a b) d uo (windowEnv po a env) := by
  have hr : runningCost po d uo env = runningCost (po.window 0 a) d uo.noTerminal (windowEnv po 0 env)
      + runningCost (po.window a b) d uo (windowEnv po a env) := by
    unfold runningCost
    rw [← hN, Finset.sum_range_add]
    refine congrArg₂ _ (Finset.sum_congr rfl fun k hk => ?_) (Finset.sum_congr rfl fun k hk => ?_)
    · have hk : k < a := Finset.mem_range.1 hk
      rw [window_nfe hk]
      simp only [window_hVal hk, window_xVal hk, window_sotVal, window_uVal, window_pVal, window_vVal]
      rfl
    · have hk : k < b := Finset.mem_range.1 hk
      rw [window_nfe hk, Nat.add_comm a k]
      simp only [window_hVal hk, window_xVal hk, window_sotVal, window_uVal, window_pVal, window_vVal]
      rfl
  have hs : stepCosts po d env = stepCosts (po.window 0 a) d (windowEnv po 0 env)
      + stepCosts (po.window a b) d (windowEnv po a env) := by
    unfold stepCosts
    rw [← hN, Finset.sum_range_add]
    refine congrArg₂ _ (Finset.sum_congr rfl fun k hk => ?_) (Finset.sum_congr rfl fun k hk => ?_)
    · have hk : k < a := Finset.mem_range.1 hk
      rw [window_nfe hk]
      unfold stepCost stepDiff
      simp only [window_hVal hk, window_nuOf hk, window_nominalH hk]
      rfl
    · have hk : k < b := Finset.mem_range.1 hk
      rw [window_nfe hk, Nat.add_comm a k]
      unfold stepCost stepDiff
      simp only [window_hVal hk, window_nuOf hk, window_nominalH hk]
      rfl
  have h1 : b - 1 < b := by omega
  have h2 : b - 1 + a = po.nStages - 1 := by omega
  have htm : terminalCost po d uo env = terminalCost (po.window a b) d uo (windowEnv po a env) := by
    unfold terminalCost
    show _ = uo.fTerminal (xEndVal (po.window a b) d (b - 1) (nfe (po.window a b) (b - 1) - 1)
      (windowEnv po a env)) (pVal d (b - 1) (windowEnv po a env)) (vVal d (windowEnv po a env))
    rw [window_nfe h1, window_xEndVal, window_pVal, window_vVal, h2]
  have h0 : terminalCost (po.window 0 a) d uo.noTerminal env = 0 := rfl
  rw [windowEnv_zero] at hr hs
  unfold plainObjective
  rw [hr, hs, htm, h0]
  ring

end
end Nosnoc
