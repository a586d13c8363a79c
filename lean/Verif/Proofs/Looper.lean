import Verif.Spec.Looper
import Verif.Props.Solve
/-
Helper lemmas about `NosnocSimLooper`.
-/
namespace Nosnoc

section
variable {colloc : IrkScheme → Nat → List ℝ} {o : Opts} {um : UserModel} {uo : Option UserOcp}
  {po : PreOpts} {m : PreModel} {oc : PreOcp} {P : Problem} {orc : Oracle} {S S1 : Solver}
  {lam00 : List ℝ} {stop : Bool} {L L' : Looper}

theorem writes_length (w : List ℝ) (ix : List Nat) (v : List ℝ) : (writes w ix v).length = w.length := by
  unfold writes
  generalize ix.zip v = l
  induction l generalizing w with
  | nil => rfl
  | cons q l ih => rw [List.foldl_cons, ih, List.length_set]

theorem activeSet_length {w0 : List ℝ} {b : Bounds} (h : activeSet S lam00 = .ok (w0, b)) :
    w0.length = S.P.form.w0.length := by
  unfold activeSet at h
  split at h
  · simp only [bind_eq_ok] at h
    obtain ⟨ix, -, h⟩ := h
    cases h
    exact writes_length _ _ _
  · cases h; rfl

/-- A `solve` that returns a result was called on a ready object. -/
theorem ready_of_ok (h : Setup colloc o um uo po m oc P) (hi : Inv po m P S) {r : SolveResult}
    (hr : (S.solve orc).2 = .ok r) : Ready um S ∧ ∃ S1 lam00, S.initialize = (S1, .ok lam00) := by
  rcases solve_cases orc S with ⟨e, he⟩ | ⟨lam00, w0, b, h1, h2, h3, -, -⟩
  · rw [he] at hr; cases hr
  · refine ⟨⟨?_, ?_⟩, S.initialize.1, lam00, by rw [← h1]⟩
    · unfold Solver.initialize at h1
      split at h1
      · cases h1
      · rename_i l hl
        unfold PreModel.computeLambda00 at hl
        simp only [bind_eq_ok] at hl
        obtain ⟨p0, -, hl⟩ := hl
        unfold CFun.num at hl
        simp only [bind_eq_ok] at hl
        obtain ⟨v, hv, -⟩ := hl
        unfold CFun.call at hv
        split at hv
        · rename_i hlen
          obtain ⟨nC, nF, g, up, f0, acc, hp⟩ := h.built.pre
          rw [hi.lam00, hp.lam00] at hlen
          simp only [List.map_cons, List.map_nil, List.length_map, List.cons.injEq] at hlen
          rw [← hlen.1, ← h.dims.1]
          simp [Dims.mX]
        · cases hv
    · rw [← initialize_length, ← activeSet_length h2, h3]
      have := (initialize_onlyGuess S).P
      rw [this]

/-- What a `solve` that returns a result has done. -/
theorem solve_facts (h : Setup colloc o um uo po m oc P) (hi : Inv po m P S) {r : SolveResult}
    (hr : (S.solve orc).2 = .ok r) :
    ∃ (new : List NlpCall), (S.solve orc).1.log = S.log ++ new ∧ new ≠ [] ∧
      (∀ c ∈ new, ∃ lam00 sigma tau, c.p = S.pValues lam00 sigma tau) ∧
      r.wSol.length = P.form.w.length ∧ getResults po S.m.x0 P r.wSol = .ok r.res ∧
      r.cpuTimeNlp.length = po.maxIterHomotopy + if po.polish then 1 else 0 := by
  obtain ⟨hrd, S1, lam00, hini⟩ := ready_of_ok h hi hr
  obtain ⟨hog, hl, w0, b, n, calls, sols, st, hact, hh, hsp, hsol, hlen⟩ :=
    solve_run orc h hi hrd hini
  have hi1 := hog.inv hi
  have hn := hh.pos
  have hlog : st.log = S.log ++ (List.range n).map calls := by
    have := hsp.log
    rw [this]
    show S1.log ++ _ = _
    rw [hog.log]
  have hcpu : st.cpu.length = po.maxIterHomotopy + if po.polish then 1 else 0 := by
    rw [hsp.cpuLen]
    show (List.replicate _ _).length = _
    rw [List.length_replicate, hi.opts]
  have hp : ∀ c ∈ (List.range n).map calls, ∃ lam00 sigma tau, c.p = S.pValues lam00 sigma tau := by
    intro c hc
    obtain ⟨k, hk, rfl⟩ := List.mem_map.1 hc
    exact ⟨_, _, _, hh.params k (List.mem_range.1 hk)⟩
  have hgr : ∀ w, getResults S1.o S1.m.x0 S1.P w = getResults po S.m.x0 P w := by
    intro w
    rw [hi1.opts, hog.m, hi1.prob]
    rfl
  have hne : (List.range n).map calls ≠ [] := by
    simp only [ne_eq, List.map_eq_nil_iff, List.range_eq_nil]; omega
  have hres : ∀ log w cpu iter cost status, (resultOf S1 st log w cpu iter cost status).2 = .ok r →
      (resultOf S1 st log w cpu iter cost status).1.log = log ∧ r.wSol = w ∧
      getResults po S.m.x0 P w = .ok r.res ∧ r.cpuTimeNlp = cpu := by
    intro log w cpu iter cost status hr
    unfold resultOf at hr ⊢
    rw [hgr] at hr ⊢
    cases hg : getResults po S.m.x0 P w with
    | error e => rw [hg] at hr; cases hr
    | ok q =>
      rw [hg] at hr
      cases hr
      refine ⟨?_, rfl, rfl, rfl⟩
      dsimp only
      split <;> rfl
  rw [hsol] at hr ⊢
  cases hpo : S1.o.polish with
  | false =>
    rw [finish_nopolish hpo (hsp.last' hn)] at hr ⊢
    obtain ⟨a1, a2, a3, a4⟩ := hres _ _ _ _ _ _ hr
    refine ⟨_, a1.trans hlog, hne, hp, ?_, ?_, ?_⟩
    · rw [a2, hlen _ (by omega), hi.w]
    · rw [a2]; exact a3
    · rw [a4]; exact hcpu
  | true =>
    rw [finish_polish hpo (hsp.last' hn)] at hr ⊢
    cases hq : polish orc S1 lam00 (sols (n - 1)).x st.log with
    | error e => rw [hq] at hr; cases hr
    | ok q =>
      rw [hq] at hr
      obtain ⟨a1, a2, a3, a4⟩ := hres _ _ _ _ _ _ hr
      obtain ⟨q0, q1, q2⟩ := polish_ok hq
      refine ⟨(List.range n).map calls ++ List.replicate S1.o.nStages (polishCall S1 lam00
        (sols (n - 1)).x), a1.trans ?_, ?_, ?_, ?_, ?_, ?_⟩
      · rw [q1, hlog, List.append_assoc]
      · simp [hne]
      · intro c hc
        rcases List.mem_append.1 hc with hc | hc
        · exact hp c hc
        · rw [List.eq_of_mem_replicate hc]
          refine ⟨lam00, 0, 0, ?_⟩
          show S1.pValues lam00 0 0 = _
          unfold Solver.pValues
          rw [hog.m]
      · rw [a2, q2, q1]
        obtain ⟨k, hk⟩ : ∃ k, S1.o.nStages = k + 1 := ⟨S1.o.nStages - 1, by omega⟩
        rw [hk, List.replicate_succ', ← List.append_assoc, orc.len]
        show (sols (n - 1)).x.length = _
        rw [hlen _ (by omega), hi.w]
      · rw [a2]; exact a3
      · rw [a4, List.length_set]; exact hcpu

/-! ### Steps -/

theorem step_ok {i : Nat} {r : SolveResult} (hs : (L.step orc i).2 = .ok r) :
    (L.sets i).2 = none ∧ ((L.sets i).1.solve orc).2 = .ok r ∧
    (L.step orc i).1 = L.collect ((L.sets i).1.solve orc).1 i r := by
  unfold Looper.step at hs ⊢
  rcases hset : L.sets i with ⟨S, e⟩
  rw [hset] at hs
  cases e with
  | some e => cases hs
  | none =>
    dsimp only at hs ⊢
    rcases hsol : S.solve orc with ⟨S', q⟩
    rw [hsol] at hs
    cases q with
    | error e => cases hs
    | ok q => cases hs; exact ⟨rfl, rfl, rfl⟩

/-- The looper before step `i + j`, when the loop is entered with `L` at index `i`. -/
noncomputable def loopAt (orc : Oracle) (L : Looper) (i : Nat) : Nat → Looper
  | 0 => L
  | j + 1 => ((loopAt orc L i j).step orc (i + j)).1

theorem loopAt_shift (orc : Oracle) (L : Looper) (i j : Nat) :
    loopAt orc (L.step orc i).1 (i + 1) j = loopAt orc L i (j + 1) := by
  induction j with
  | zero => rfl
  | succ j ih =>
    show ((loopAt orc (L.step orc i).1 (i + 1) j).step orc (i + 1 + j)).1
      = ((loopAt orc L i (j + 1)).step orc (i + (j + 1))).1
    rw [ih, Nat.add_assoc, Nat.add_comm 1 j]

theorem runLoop_ok {n i : Nat} {b : Bool} (h : Looper.runLoop orc stop n i L = (L', .ok b)) :
    b = true ∧ L' = loopAt orc L i n ∧
    ∀ j < n, ∃ r, ((loopAt orc L i j).step orc (i + j)).2 = .ok r := by
  induction n generalizing i L with
  | zero => cases h; exact ⟨rfl, rfl, fun j hj => absurd hj (Nat.not_lt_zero j)⟩
  | succ n ih =>
    rw [Looper.runLoop] at h
    rcases hs : L.step orc i with ⟨L1, q⟩
    rw [hs] at h
    cases q with
    | error e => cases h
    | ok r =>
      simp only [statusEqStr, Bool.and_false, Bool.false_eq_true, if_false] at h
      obtain ⟨h1, h2, h3⟩ := ih h
      have hL1 : L1 = (L.step orc i).1 := by rw [hs]
      refine ⟨h1, ?_, fun j hj => ?_⟩
      · rw [h2, hL1, loopAt_shift]
      · cases j with
        | zero => exact ⟨r, by rw [loopAt, Nat.add_zero, hs]⟩
        | succ j =>
          obtain ⟨r', hr'⟩ := h3 j (by omega)
          rw [hL1, loopAt_shift] at hr'
          exact ⟨r', by rw [← hr']; congr 2; omega⟩

theorem runLoop_all {n i : Nat}
    (h : ∀ j < n, ∃ r, ((loopAt orc L i j).step orc (i + j)).2 = .ok r) :
    Looper.runLoop orc stop n i L = (loopAt orc L i n, .ok true) := by
  induction n generalizing i L with
  | zero => rfl
  | succ n ih =>
    obtain ⟨r, hr⟩ := h 0 (by omega)
    rw [loopAt, Nat.add_zero] at hr
    have hs : L.step orc i = ((L.step orc i).1, .ok r) := by rw [← hr]
    rw [Looper.runLoop, hs]
    simp only [statusEqStr, Bool.and_false, Bool.false_eq_true, if_false]
    rw [ih, loopAt_shift]
    intro j hj
    obtain ⟨r', hr'⟩ := h (j + 1) (by omega)
    rw [loopAt_shift]
    exact ⟨r', by rw [← hr']; congr 2; omega⟩

theorem andThen_ok {r : Outcome} {f : Solver → Outcome} (h : (andThen r f).2 = none) :
    r.2 = none ∧ (f r.1).2 = none ∧ andThen r f = f r.1 := by
  unfold andThen at h ⊢
  split at h
  · rename_i e he; rw [he] at h; cases h
  · rename_i he; rw [he]; exact ⟨rfl, h, rfl⟩

theorem setWInit_ok {wi : Option (List Arr)} {i : Nat} (h : (setWInit wi i S).2 = none) :
    (wi = none ∧ (setWInit wi i S).1 = S) ∨
    ∃ ws a, wi = some ws ∧ ws[i]? = some a ∧ S.o.initStrategy = .external ∧
      (setWInit wi i S).1 = S.setW0 (setWInit wi i S).1.P.form.w0 ∧
      (setWInit wi i S).1 = (S.set .w a).1 ∧ ∀ v, a = .vec v → (setWInit wi i S).1 = S.setW0 v := by
  cases wi with
  | none => exact .inl ⟨rfl, rfl⟩
  | some ws =>
    refine .inr ?_
    unfold setWInit at h ⊢
    dsimp only at h ⊢
    cases hw : ws[i]? with
    | none => rw [hw] at h; cases h
    | some a =>
      rw [hw] at h
      dsimp only at h ⊢
      refine ⟨ws, a, rfl, hw, ?_, ?_, rfl, fun v hv => by rw [hv]; rfl⟩
      · by_contra hne
        cases a with
        | vec v =>
          change (if _ then none else some PyErr.warning) = none at h
          rw [if_neg (by exact hne)] at h
          cases h
        | mat r c f =>
          change (if _ then none else some PyErr.warning) = none at h
          rw [if_neg (by exact hne)] at h
          cases h
      · cases a <;> rfl

theorem setPRow_ok {pv : Option Arr} {i : Nat} (h : (setPRow pv i S).2 = none) :
    (pv = none ∧ (setPRow pv i S).1 = S) ∨
    ∃ r c f, pv = some (.mat r c f) ∧ i < r ∧
      (setPRow pv i S).1 = (S.set .pGlobal (.vec ((List.range c).map (f i)))).1 ∧
      (c = S.m.dims.nPgl → (setPRow pv i S).1 = S.setPVal (S.m.pVal.map (setGlobal S.m.dims.nPtv
        ((List.range c).map (f i))))) := by
  cases pv with
  | none => exact .inl ⟨rfl, rfl⟩
  | some a =>
    refine .inr ?_
    unfold setPRow at h ⊢
    cases a with
    | vec v => cases h
    | mat r c f =>
      dsimp only [Arr.row] at h ⊢
      by_cases hi : i < r
      · rw [if_pos hi] at h ⊢
        dsimp only at h ⊢
        refine ⟨r, c, f, rfl, hi, rfl, fun hc => ?_⟩
        show (S.setPGlobal _).1 = _
        have : Arr.bcast1 S.m.dims.nPgl (.vec ((List.range c).map (f i)))
            = .ok ((List.range c).map (f i)) := by
          show bcast _ _ = _
          unfold bcast
          rw [if_pos (by simp [hc])]
        unfold Solver.setPGlobal
        rw [this]
      · rw [if_neg hi] at h; cases h

theorem set_log (S : Solver) (f : Field) (v : Arr) : (S.set f v).1.log = S.log := by
  have hw : ∀ (T : Solver) l, (T.write l).1.log = T.log := fun _ _ => rfl
  have hwr : ∀ (T : Solver) v l, (T.writeRows v l).1.log = T.log := by
    intro T v l
    unfold Solver.writeRows
    split
    · rfl
    · rfl
  have hth : ∀ r : Outcome, (thenWarn r).1.log = r.1.log := by
    intro r
    unfold thenWarn
    split <;> rfl
  cases f with
  | x0 => cases v <;> rfl
  | x =>
    show (thenWarn _).1.log = _
    rw [hth]
    unfold Solver.setXWrites
    split
    · exact hwr _ _ _
    · split
      · exact hwr _ _ _
      · rfl
  | u => 
    show (S.setArr _ _).1.log = _
    unfold Solver.setArr
    split <;> rfl
  | vGlobal =>
    show (S.setArr _ _).1.log = _
    unfold Solver.setArr
    split <;> rfl
  | pGlobal =>
    show (S.setPGlobal _).1.log = _
    unfold Solver.setPGlobal
    split <;> rfl
  | pTimeVar => rfl
  | theta =>
    show (S.setTheta _).1.log = _
    unfold Solver.setTheta
    split
    · split <;> rfl
    · rfl
  | w => cases v <;> rfl
  | other => rfl

/-- What the setters of a step do. -/
theorem sets_ok {i : Nat} (h : (L.sets i).2 = none) :
    (L.sets i).1.log = L.solver.log ∧ (L.sets i).1.m.x0 = L.xcurrent ∧
    (Reachable colloc o um uo orc L.solver → Reachable colloc o um uo orc (L.sets i).1) ∧
    (L.wInit = none → (L.sets i).1.P = L.solver.P) ∧
    (∀ ws, L.wInit = some ws → L.solver.o.initStrategy = .external ∧
      ∃ a, ws[i]? = some a ∧ ∀ v, a = .vec v → (L.sets i).1.P.form.w0 = v) ∧
    (L.pValues = none → (L.sets i).1.m.pVal = L.solver.m.pVal) ∧
    (∀ r c f, L.pValues = some (.mat r c f) → i < r ∧ (c = L.solver.m.dims.nPgl →
      (L.sets i).1.m.pVal = L.solver.m.pVal.map
        (setGlobal L.solver.m.dims.nPtv ((List.range c).map (f i))))) := by
  unfold Looper.sets at h ⊢
  obtain ⟨h1, h2, h3⟩ := andThen_ok h
  obtain ⟨-, h4, h5⟩ := andThen_ok h1
  rw [h3]
  rw [h5] at h2 ⊢
  have e0 : (L.solver.set .x0 (.vec L.xcurrent)).1 = L.solver.setX0 L.xcurrent := rfl
  rw [e0] at h2 h4 ⊢
  generalize hA : (setWInit L.wInit i (L.solver.setX0 L.xcurrent)).1 = A at h2 ⊢
  have hAx : A.log = L.solver.log ∧ A.m = { L.solver.m with x0 := L.xcurrent } ∧
      (Reachable colloc o um uo orc L.solver → Reachable colloc o um uo orc A) ∧
      (L.wInit = none → A.P = L.solver.P) ∧
      (∀ ws, L.wInit = some ws → L.solver.o.initStrategy = .external ∧
        ∃ a, ws[i]? = some a ∧ ∀ v, a = .vec v → A.P.form.w0 = v) := by
    rcases setWInit_ok h4 with ⟨hw, hA'⟩ | ⟨ws, a, hw, hwi, hext, hA1, hA2, hA3⟩
    · rw [hA] at hA'
      subst hA'
      refine ⟨rfl, rfl, fun hR => .set .x0 (.vec L.xcurrent) hR, fun _ => rfl, fun ws hws => ?_⟩
      rw [hw] at hws; cases hws
    · rw [hA] at hA1 hA2 hA3
      refine ⟨?_, ?_, fun hR => ?_, fun hn => ?_, fun ws' hws => ?_⟩
      · rw [hA1]; rfl
      · rw [hA1]; rfl
      · rw [hA2]; exact .set .w a (.set .x0 (.vec L.xcurrent) hR)
      · rw [hn] at hw; cases hw
      · rw [hw] at hws; cases hws
        exact ⟨hext, a, hwi, fun v hv => by rw [hA3 v hv]; rfl⟩
  obtain ⟨a1, a2, a3, a4, a5⟩ := hAx
  rcases setPRow_ok h2 with ⟨hp, hB⟩ | ⟨r, c, f, hp, hir, hB1, hB2⟩
  · rw [hB]
    refine ⟨a1, by rw [a2], a3, a4, a5, fun _ => by rw [a2], fun r c f hf => ?_⟩
    rw [hp] at hf; cases hf
  · have hPm : (setPRow L.pValues i A).1.P = A.P ∧ (setPRow L.pValues i A).1.m.x0 = A.m.x0 := by
      rw [hB1]
      show (A.setPGlobal _).1.P = _ ∧ (A.setPGlobal _).1.m.x0 = _
      unfold Solver.setPGlobal
      split <;> exact ⟨rfl, rfl⟩
    refine ⟨?_, ?_, fun hR => ?_, fun hn => ?_, fun ws hws => ?_, fun hn => ?_, fun r' c' f' hf => ?_⟩
    · rw [hB1, set_log]; exact a1
    · rw [hPm.2, a2]
    · rw [hB1]; exact .set .pGlobal _ (a3 hR)
    · rw [hPm.1]; exact a4 hn
    · rw [hPm.1]; exact a5 ws hws
    · rw [hn] at hp; cases hp
    · rw [hp] at hf
      cases hf
      refine ⟨hir, fun hc => ?_⟩
      rw [hB2 (by rw [a2]; exact hc), a2]
      rfl

end
end Nosnoc
