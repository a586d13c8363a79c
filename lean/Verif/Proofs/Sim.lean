import Verif.Proofs.Looper
/-
Helper lemmas: the records of `NosnocSimLooper` after some steps.
-/
namespace Nosnoc

section
variable {colloc : IrkScheme → Nat → List ℝ} {o : Opts} {um : UserModel} {uo : Option UserOcp}
  {po : PreOpts} {m : PreModel} {oc : PreOcp} {P : Problem} {orc : Oracle} {S S1 : Solver}
  {lam00 : List ℝ} {stop : Bool} {L L' : Looper} {N nE : Nat} {x0 : List ℝ} {pv : Option Arr}
  {wi : Option (List Arr)} {result : Nat → SolveResult}

instance : Nonempty SolveResult :=
  ⟨⟨⟨[], [], [], [], none, [], [], [], [], [], [], [], [], [], [], [], []⟩, [], [], [], [], 0,
    .success⟩⟩

theorem create_ok (hc : Looper.create S x0 N pv wi = .ok L) :
    S.P.isSim S.o S.m = true ∧ (∀ a, pv = some a → shapeIs a N S.m.dims.nPgl = true) ∧
    L = { solver := S, nSim := N, pValues := pv, wInit := wi, xcurrent := x0, xSim := [x0],
          timeSteps := [], thetaSim := [], lambdaSim := [], alphaSim := [], zSim := [], sot := [],
          wSim := [], wAll := [], costVals := [], status := [], switchTimes := [],
          cpuNlp := List.replicate N
            (List.replicate (S.o.maxIterHomotopy + if S.o.polish then 1 else 0) (some 0)) } := by
  unfold Looper.create at hc
  simp only [bind_eq_ok, check_eq_ok] at hc
  obtain ⟨-, h1, -, h2, hc⟩ := hc
  cases hc
  exact ⟨h1, h2, rfl⟩

theorem elements_pos (h : Setup colloc o um uo po m oc P) (hL : o.nfeAfter.length = o.nStages) :
    0 < o.nfeAfter.sum := by
  have hs := Nat.pos_of_ne_zero h.built.ok.primal.stages
  have h0 := (h.built.ok.primal.nfe 0 hs).2
  have e1 : po.nfeList = o.nfeAfter := by rw [h.opts]
  unfold nfe at h0
  rw [e1] at h0
  cases hl : o.nfeAfter with
  | nil => rw [hl] at h0; simp at h0
  | cons a l => rw [hl] at h0; simp at h0; simp; omega

/-- The results of one step. -/
theorem step_results (h : Setup colloc o um uo po m oc P) (hL : o.nfeAfter.length = o.nStages)
    {w : List ℝ} {r : Results} (hw : w.length = P.form.w.length)
    (hr : getResults po x0 P w = .ok r) :
    r.xList.length = o.nfeAfter.sum ∧ r.xList.getLast? = some r.xOut ∧
    r.timeSteps.length = o.nfeAfter.sum := by
  have hS := C58_results_meaning h hL hw hr []
  obtain ⟨h1, -, -, h4, -, h6, -⟩ := C58_results_aligned h hL hw hr
  have hx : r.xTraj = x0 :: r.xList := by rw [hS.xTraj, hS.xList]
  have hp := elements_pos h hL
  rw [hx] at h1 h4
  have hlen : r.xList.length = o.nfeAfter.sum := by simpa using h1
  refine ⟨hlen, ?_, h6⟩
  cases hl : r.xList with
  | nil => rw [hl] at hlen; simp at hlen; omega
  | cons a l => rw [hl, List.getLast?_cons_cons] at h4; exact h4

/-- The records before step `j`. -/
structure SimInv (orc : Oracle) (S : Solver) (x0 : List ℝ) (N nE : Nat) (pv : Option Arr)
    (wi : Option (List Arr)) (result : Nat → SolveResult) (calls : Nat → List NlpCall) (j : Nat)
    (L : Looper) : Prop where
  pv : L.pValues = pv
  wi : L.wInit = wi
  o : L.solver.o = S.o
  log : L.solver.log = S.log ++ (List.range j).flatMap calls
  states : L.xSim = x0 :: (List.range j).flatMap fun i => (result i).res.xList
  number : L.xSim.length = 1 + j * nE
  cur : L.xSim[j * nE]? = some L.xcurrent
  steps : L.timeSteps = (List.range j).flatMap fun i => (result i).res.timeSteps
  stepsLen : L.timeSteps.length = j * nE
  switch : L.switchTimes = (List.range j).flatMap fun i => (result i).res.switchTimes.map fun t =>
    t + ((List.range i).map fun i' => (result i').res.timeSteps.sum).sum
  status : L.status = (List.range j).map fun i => (result i).status
  cost : L.costVals = (List.range j).map fun i => (result i).costVal
  w : L.wSim = (List.range j).map fun i => (result i).wSol
  wAll : L.wAll = (List.range j).map fun i => (result i).wAll
  theta : L.thetaSim = (List.range j).map fun i => (result i).res.thetaList
  lam : L.lambdaSim = (List.range j).map fun i => (result i).res.lambdaList
  alpha : L.alphaSim = (List.range j).map fun i => (result i).res.alphaList
  z : L.zSim = (List.range j).map fun i => (result i).res.zList
  sot : L.sot = if S.o.sot = .none then [] else (List.range j).map fun i => (result i).res.sot
  cpu : L.cpuNlp = (List.range N).map fun i => if i < j then (result i).cpuTimeNlp else
    List.replicate (S.o.maxIterHomotopy + if S.o.polish then 1 else 0) (some 0)

/-- The solver object of step `j` before `solve`. -/
noncomputable def beforeStep (orc : Oracle) (L : Looper) (j : Nat) : Solver :=
  ((loopAt orc L 0 j).sets j).1

theorem loop_reachable (hS : Reachable colloc o um uo orc L.solver)
    (ok : ∀ j < N, ((loopAt orc L 0 j).step orc (0 + j)).2 = .ok (result j)) :
    ∀ j ≤ N, Reachable colloc o um uo orc (loopAt orc L 0 j).solver := by
  intro j
  induction j with
  | zero => intro _; exact hS
  | succ j ih =>
    intro hj
    have ho := ok j (by omega)
    rw [Nat.zero_add] at ho
    obtain ⟨h1, h2, h3⟩ := step_ok ho
    rw [loopAt, Nat.zero_add, h3]
    exact .solve ((sets_ok h1).2.2.1 (ih (by omega)))

theorem flatMap_range_succ {α : Type} (f : Nat → List α) (n : Nat) :
    (List.range (n + 1)).flatMap f = (List.range n).flatMap f ++ f n := by
  rw [List.range_succ, List.flatMap_append]; simp

theorem map_range_succ' {α : Type} (f : Nat → α) (n : Nat) :
    (List.range (n + 1)).map f = (List.range n).map f ++ [f n] := by
  rw [List.range_succ, List.map_append]; rfl

theorem sum_flatMap_range (f : Nat → List ℝ) (n : Nat) :
    ((List.range n).flatMap f).sum = ((List.range n).map fun i => (f i).sum).sum := by
  induction n with
  | zero => rfl
  | succ n ih => rw [flatMap_range_succ, List.sum_append, ih, map_range_succ', List.sum_append]; simp

theorem sim_inv (h : Setup colloc o um uo po m oc P) (hL : o.nfeAfter.length = o.nStages)
    (hS : Reachable colloc o um uo orc S) (hc : Looper.create S x0 N pv wi = .ok L)
    (ok : ∀ j < N, ((loopAt orc L 0 j).step orc (0 + j)).2 = .ok (result j)) :
    ∃ calls : Nat → List NlpCall,
      (∀ j < N, Reachable colloc o um uo orc (beforeStep orc L j) ∧
        ((beforeStep orc L j).solve orc).2 = .ok (result j) ∧
        ((beforeStep orc L j).solve orc).1.log = (beforeStep orc L j).log ++ calls j ∧
        calls j ≠ [] ∧
        (∀ c ∈ calls j, ∃ lam00 sigma tau, c.p = (beforeStep orc L j).pValues lam00 sigma tau) ∧
        (result j).wSol.length = P.form.w.length ∧
        getResults po (beforeStep orc L j).m.x0 P (result j).wSol = .ok (result j).res ∧
        ((loopAt orc L 0 j).sets j).2 = none) ∧
      ∀ j ≤ N, SimInv orc S x0 N o.nfeAfter.sum pv wi result calls j (loopAt orc L 0 j) := by
  classical
  obtain ⟨-, -, rfl⟩ := create_ok hc
  generalize hLL : (Looper.mk S N pv wi x0 [x0] [] [] [] [] [] [] [] [] [] [] [] _ : Looper) = L at *
  have hreach : ∀ j ≤ N, Reachable colloc o um uo orc (loopAt orc L 0 j).solver :=
    loop_reachable (by rw [← hLL]; exact hS) ok
  have hstep : ∀ j < N, ∃ new : List NlpCall,
      Reachable colloc o um uo orc (beforeStep orc L j) ∧
      ((beforeStep orc L j).solve orc).2 = .ok (result j) ∧
      ((beforeStep orc L j).solve orc).1.log = (beforeStep orc L j).log ++ new ∧
      new ≠ [] ∧
      (∀ c ∈ new, ∃ lam00 sigma tau, c.p = (beforeStep orc L j).pValues lam00 sigma tau) ∧
      (result j).wSol.length = P.form.w.length ∧
      getResults po (beforeStep orc L j).m.x0 P (result j).wSol = .ok (result j).res ∧
      ((loopAt orc L 0 j).sets j).2 = none ∧
      (result j).cpuTimeNlp.length = po.maxIterHomotopy + if po.polish then 1 else 0 := by
    intro j hj
    have ho := ok j hj
    rw [Nat.zero_add] at ho
    obtain ⟨h1, h2, h3⟩ := step_ok ho
    have hR := (sets_ok h1).2.2.1 (hreach j (by omega))
    obtain ⟨new, f1, f2, f3, f4, f5, f6⟩ := solve_facts h (hR.inv h) h2
    exact ⟨new, hR, h2, f1, f2, f3, f4, f5, h1, f6⟩
  choose! calls hcalls using hstep
  refine ⟨calls, fun j hj => ?_, ?_⟩
  · obtain ⟨a1, a2, a3, a4, a5, a6, a7, a8, -⟩ := hcalls j hj
    exact ⟨a1, a2, a3, a4, a5, a6, a7, a8⟩
  intro j
  induction j with
  | zero =>
    intro _
    rw [loopAt, ← hLL]
    refine ⟨rfl, rfl, rfl, by simp, by simp, by simp, by simp, by simp, by simp, by simp, by simp,
      by simp, by simp, by simp, by simp, by simp, by simp, by simp, by simp, ?_⟩
    dsimp only
    rw [show (fun i => if i < 0 then (result i).cpuTimeNlp else
      List.replicate (S.o.maxIterHomotopy + if S.o.polish then 1 else 0) (some (0 : ℝ)))
      = fun _ => List.replicate (S.o.maxIterHomotopy + if S.o.polish then 1 else 0) (some 0) from by
        funext i; simp]
    simp
  | succ j ih =>
    intro hj
    have I := ih (by omega)
    have ho := ok j (by omega)
    rw [Nat.zero_add] at ho
    obtain ⟨h1, h2, h3⟩ := step_ok ho
    obtain ⟨a1, a2, a3, a4, a5, a6, a7, a8, a9⟩ := hcalls j (by omega)
    obtain ⟨r1, r2, r3⟩ := step_results h hL a6 a7
    obtain ⟨s1, s2, -⟩ := sets_ok (colloc := colloc) (o := o) (um := um) (uo := uo) (orc := orc) h1
    have hso : ((beforeStep orc L j).solve orc).1.o = S.o := by
      have e1 := (a1.inv h).opts
      have e2 := (hS.inv h).opts
      rw [(solve_only orc _).1, e1, e2]
    rw [loopAt, Nat.zero_add, h3]
    change SimInv orc S x0 N o.nfeAfter.sum pv wi result calls (j + 1)
      ((loopAt orc L 0 j).collect ((beforeStep orc L j).solve orc).1 j (result j))
    have hlast : ((loopAt orc L 0 j).xSim ++ (result j).res.xList).getLast?
        = some (result j).res.xOut := by
      rw [List.getLast?_append, r2]; rfl
    have hnum : ((loopAt orc L 0 j).xSim ++ (result j).res.xList).length
        = 1 + (j + 1) * o.nfeAfter.sum := by
      rw [List.length_append, I.number, r1]; ring
    refine ⟨I.pv, I.wi, hso, ?_, ?_, ?_, ?_, ?_, ?_, ?_, ?_, ?_, ?_, ?_, ?_, ?_, ?_, ?_, ?_, ?_⟩
    · show ((beforeStep orc L j).solve orc).1.log = _
      rw [a3, flatMap_range_succ, ← List.append_assoc, ← I.log]
      show ((loopAt orc L 0 j).sets j).1.log ++ _ = _
      rw [s1]
    · show (loopAt orc L 0 j).xSim ++ (result j).res.xList = _
      rw [flatMap_range_succ, I.states]; rfl
    · exact hnum
    · show ((loopAt orc L 0 j).xSim ++ (result j).res.xList)[_]? = some _
      dsimp only [Looper.collect]
      rw [hlast, Option.getD_some, ← hlast, List.getLast?_eq_getElem?, hnum]
      congr 1; omega
    · show (loopAt orc L 0 j).timeSteps ++ _ = _
      rw [flatMap_range_succ, I.steps]
    · show ((loopAt orc L 0 j).timeSteps ++ _).length = _
      rw [List.length_append, I.stepsLen, r3]; ring
    · show (loopAt orc L 0 j).switchTimes ++ _ = _
      rw [flatMap_range_succ, I.switch, I.steps, sum_flatMap_range]
    · show (loopAt orc L 0 j).status ++ _ = _
      rw [map_range_succ', I.status]
    · show (loopAt orc L 0 j).costVals ++ _ = _
      rw [map_range_succ', I.cost]
    · show (loopAt orc L 0 j).wSim ++ _ = _
      rw [map_range_succ', I.w]
    · show (loopAt orc L 0 j).wAll ++ _ = _
      rw [map_range_succ', I.wAll]
    · show (loopAt orc L 0 j).thetaSim ++ _ = _
      rw [map_range_succ', I.theta]
    · show (loopAt orc L 0 j).lambdaSim ++ _ = _
      rw [map_range_succ', I.lam]
    · show (loopAt orc L 0 j).alphaSim ++ _ = _
      rw [map_range_succ', I.alpha]
    · show (loopAt orc L 0 j).zSim ++ _ = _
      rw [map_range_succ', I.z]
    · show (if ((beforeStep orc L j).solve orc).1.o.sot ≠ .none then _ else _) = _
      rw [hso, I.sot, map_range_succ']
      by_cases hs : S.o.sot = .none
      · simp [hs]
      · simp [hs]
    · show (loopAt orc L 0 j).cpuNlp.set j _ = _
      rw [I.cpu]
      apply List.ext_getElem?
      intro i
      rw [List.getElem?_set]
      simp only [List.length_map, List.length_range, List.getElem?_map]
      by_cases hi : i < N
      · rw [List.getElem?_range hi]
        by_cases hji : j = i
        · subst hji
          simp [hi]
        · rw [if_neg hji]
          simp only [Option.map_some]
          congr 1
          by_cases hlt : i < j
          · rw [if_pos hlt, if_pos (by omega)]
          · rw [if_neg hlt, if_neg (show ¬ i < j + 1 by omega)]
      · have : (List.range N)[i]? = none := by simp; omega
        rw [this]
        split
        · exfalso; omega
        · rfl

end
end Nosnoc
