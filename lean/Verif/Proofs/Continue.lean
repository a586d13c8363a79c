import Verif.Proofs.Sim
import Verif.Spec.Continue
/-
Helper lemmas: two loopers making the same steps.
-/
namespace Nosnoc

section
variable {orc : Oracle} {stop : Bool} {A B C L : Looper} {pre post : List (List (Option ℝ))}
  {i k n : Nat}

/-- Looper `C` is where `B` is, and its records are those of `A` followed by those of `B`. -/
structure Joins (A B C : Looper) (pre post : List (List (Option ℝ))) : Prop where
  solver : C.solver = B.solver
  cur : C.xcurrent = B.xcurrent
  x : C.xSim = A.xSim ++ B.xSim.tail
  ne : B.xSim ≠ []
  head : B.xSim.head? = A.xSim.getLast?
  last : C.xSim.getLast? = B.xSim.getLast?
  steps : C.timeSteps = A.timeSteps ++ B.timeSteps
  switch : C.switchTimes = A.switchTimes ++ B.switchTimes.map fun t => t + A.timeSteps.sum
  cpu : C.cpuNlp = pre ++ B.cpuNlp ++ post
  theta : C.thetaSim = A.thetaSim ++ B.thetaSim
  lam : C.lambdaSim = A.lambdaSim ++ B.lambdaSim
  alpha : C.alphaSim = A.alphaSim ++ B.alphaSim
  z : C.zSim = A.zSim ++ B.zSim
  sot : C.sot = A.sot ++ B.sot
  w : C.wSim = A.wSim ++ B.wSim
  wAll : C.wAll = A.wAll ++ B.wAll
  cost : C.costVals = A.costVals ++ B.costVals
  status : C.status = A.status ++ B.status

/-- Step `i` of `B` and step `k + i` of `C` are given the same data. -/
def SameData (B C : Looper) (k i : Nat) : Prop :=
  setWInit B.wInit i = setWInit C.wInit (k + i) ∧ setPRow B.pValues i = setPRow C.pValues (k + i)

theorem Joins.sets (J : Joins A B C pre post) (hd : SameData B C k i) : C.sets (k + i) = B.sets i := by
  unfold Looper.sets
  rw [J.solver, J.cur, hd.1, hd.2]

theorem Joins.collect (J : Joins A B C pre post) (hk : pre.length = k) (hi : i < B.cpuNlp.length)
    (S : Solver) (r : SolveResult) :
    Joins A (B.collect S i r) (C.collect S (k + i) r) pre post := by
  have hlast : (C.xSim ++ r.res.xList).getLast? = (B.xSim ++ r.res.xList).getLast? := by
    rw [List.getLast?_append, List.getLast?_append, J.last]
  refine ⟨rfl, ?_, ?_, ?_, ?_, hlast, ?_, ?_, ?_, ?_, ?_, ?_, ?_, ?_, ?_, ?_, ?_, ?_⟩
  · show ((C.xSim ++ r.res.xList).getLast?).getD [] = ((B.xSim ++ r.res.xList).getLast?).getD []
    rw [hlast]
  · show C.xSim ++ r.res.xList = A.xSim ++ (B.xSim ++ r.res.xList).tail
    rw [List.tail_append_of_ne_nil J.ne, J.x, List.append_assoc]
  · show B.xSim ++ r.res.xList ≠ []
    exact List.append_ne_nil_of_left_ne_nil J.ne _
  · show (B.xSim ++ r.res.xList).head? = _
    rw [← J.head]
    cases hb : B.xSim with
    | nil => exact absurd hb J.ne
    | cons a l => rfl
  · show C.timeSteps ++ _ = A.timeSteps ++ (B.timeSteps ++ _)
    rw [J.steps, List.append_assoc]
  · show C.switchTimes ++ r.res.switchTimes.map (fun t => t + C.timeSteps.sum) =
      A.switchTimes ++ (B.switchTimes ++ r.res.switchTimes.map fun t => t + B.timeSteps.sum).map
        fun t => t + A.timeSteps.sum
    rw [J.switch, J.steps, List.map_append, List.append_assoc, List.map_map, List.sum_append]
    congr 2
    apply List.map_congr_left
    intro t _
    simp only [Function.comp]
    ring
  · show C.cpuNlp.set (k + i) _ = pre ++ B.cpuNlp.set i _ ++ post
    rw [J.cpu, List.append_assoc, List.append_assoc, List.set_append_right _ _ (by omega),
      List.set_append_left _ _ (by omega)]
    congr 3
    omega
  · show C.thetaSim ++ _ = A.thetaSim ++ (B.thetaSim ++ _)
    rw [J.theta, List.append_assoc]
  · show C.lambdaSim ++ _ = A.lambdaSim ++ (B.lambdaSim ++ _)
    rw [J.lam, List.append_assoc]
  · show C.alphaSim ++ _ = A.alphaSim ++ (B.alphaSim ++ _)
    rw [J.alpha, List.append_assoc]
  · show C.zSim ++ _ = A.zSim ++ (B.zSim ++ _)
    rw [J.z, List.append_assoc]
  · show (if S.o.sot ≠ .none then C.sot ++ _ else C.sot) =
      A.sot ++ (if S.o.sot ≠ .none then B.sot ++ _ else B.sot)
    split
    · rw [J.sot, List.append_assoc]
    · rw [J.sot]
  · show C.wSim ++ _ = A.wSim ++ (B.wSim ++ _)
    rw [J.w, List.append_assoc]
  · show C.wAll ++ _ = A.wAll ++ (B.wAll ++ _)
    rw [J.wAll, List.append_assoc]
  · show C.costVals ++ _ = A.costVals ++ (B.costVals ++ _)
    rw [J.cost, List.append_assoc]
  · show C.status ++ _ = A.status ++ (B.status ++ _)
    rw [J.status, List.append_assoc]

/-- Both make the same step. -/
theorem Joins.step (J : Joins A B C pre post) (hk : pre.length = k) (hi : i < B.cpuNlp.length)
    (hd : SameData B C k i) :
    (C.step orc (k + i)).2 = (B.step orc i).2 ∧
    ∀ r, (B.step orc i).2 = .ok r →
      Joins A (B.step orc i).1 (C.step orc (k + i)).1 pre post ∧
      (B.step orc i).1.wInit = B.wInit ∧ (B.step orc i).1.pValues = B.pValues ∧
      (C.step orc (k + i)).1.wInit = C.wInit ∧ (C.step orc (k + i)).1.pValues = C.pValues ∧
      (B.step orc i).1.cpuNlp.length = B.cpuNlp.length := by
  unfold Looper.step
  rw [J.sets hd]
  rcases B.sets i with ⟨S, e | e⟩
  · dsimp only
    rcases S.solve orc with ⟨S', e | r⟩
    · refine ⟨rfl, fun r hr => by cases hr⟩
    · refine ⟨rfl, fun r' _ => ⟨J.collect hk hi S' r, rfl, rfl, rfl, rfl, ?_⟩⟩
      show (B.cpuNlp.set i r.cpuTimeNlp).length = _
      rw [List.length_set]
  · exact ⟨rfl, fun r hr => by cases hr⟩

theorem runLoop_cons (orc : Oracle) (stop : Bool) (n i : Nat) (L : Looper) :
    Looper.runLoop orc stop (n + 1) i L = match L.step orc i with
      | (L', .error e) => (L', .error e)
      | (L', .ok _) => Looper.runLoop orc stop n (i + 1) L' := by
  rw [Looper.runLoop]
  rcases L.step orc i with ⟨L', e | r⟩
  · rfl
  · simp [statusEqStr]

/-- Both make the same `n` steps. -/
theorem Joins.loop (n : Nat) : ∀ {i : Nat} {B C : Looper}, Joins A B C pre post → pre.length = k →
    i + n ≤ B.cpuNlp.length → (∀ j, i ≤ j → j < i + n → SameData B C k j) →
    (Looper.runLoop orc stop n (k + i) C).2 = (Looper.runLoop orc stop n i B).2 ∧
    ∀ b, (Looper.runLoop orc stop n i B).2 = .ok b →
      Joins A (Looper.runLoop orc stop n i B).1 (Looper.runLoop orc stop n (k + i) C).1 pre post ∧
      (Looper.runLoop orc stop n i B).1.cpuNlp.length = B.cpuNlp.length ∧
      (Looper.runLoop orc stop n (k + i) C).1.wInit = C.wInit ∧
      (Looper.runLoop orc stop n (k + i) C).1.pValues = C.pValues := by
  induction n with
  | zero => exact fun J _ _ _ => ⟨rfl, fun b _ => ⟨J, rfl, rfl, rfl⟩⟩
  | succ n ih =>
    intro i B C J hk hlen hd
    obtain ⟨h1, h2⟩ := J.step (orc := orc) hk (by omega) (hd i le_rfl (by omega))
    rw [runLoop_cons, runLoop_cons]
    rcases hb : B.step orc i with ⟨B', e | r⟩
    · rw [hb] at h1 h2
      rcases hc : C.step orc (k + i) with ⟨C', e' | r'⟩
      · rw [hc] at h1
        refine ⟨?_, fun b hb => by cases hb⟩
        simpa using h1
      · rw [hc] at h1; cases h1
    · rw [hb] at h1 h2
      rcases hc : C.step orc (k + i) with ⟨C', e' | r'⟩
      · rw [hc] at h1; cases h1
      · rw [hc] at h1 h2
        obtain ⟨J', a1, a2, a3, a4, a5⟩ := h2 r rfl
        dsimp only at J' a1 a2 a3 a4 a5 ⊢
        have := ih (i := i + 1) J' hk (by omega) (fun j hj hj' => by
          have := hd j (by omega) (by omega)
          unfold SameData at this ⊢
          rwa [a1, a2, a3, a4])
        rw [show k + (i + 1) = k + i + 1 by omega, a3, a4, a5] at this
        exact this

/-- A loop in two parts. -/
theorem runLoop_add (orc : Oracle) (stop : Bool) (n1 n2 : Nat) : ∀ (i : Nat) (L : Looper),
    Looper.runLoop orc stop (n1 + n2) i L = match Looper.runLoop orc stop n1 i L with
      | (L', .error e) => (L', .error e)
      | (L', .ok _) => Looper.runLoop orc stop n2 (i + n1) L' := by
  induction n1 with
  | zero => intro i L; simp [Looper.runLoop]
  | succ n1 ih =>
    intro i L
    rw [show n1 + 1 + n2 = n1 + n2 + 1 by omega, runLoop_cons, runLoop_cons]
    rcases L.step orc i with ⟨L', e | r⟩
    · rfl
    · dsimp only
      rw [ih, show i + 1 + n1 = i + (n1 + 1) by omega]

theorem cumsumFrom_append (a : ℝ) (l1 l2 : List ℝ) :
    cumsumFrom a (l1 ++ l2) = cumsumFrom a l1 ++ (cumsumFrom 0 l2).map fun t => t + (a + l1.sum) := by
  induction l1 generalizing a with
  | nil =>
    have : ∀ (b c : ℝ) (l : List ℝ), cumsumFrom (b + c) l = (cumsumFrom c l).map fun t => t + b := by
      intro b c l
      induction l generalizing c with
      | nil => rfl
      | cons x l ih =>
        rw [cumsumFrom, cumsumFrom, List.map_cons, ← ih, show b + (c + x) = b + c + x by ring,
          show c + x + b = b + c + x by ring]
    simp only [List.nil_append, cumsumFrom, List.sum_nil, add_zero]
    rw [← this, add_zero]
  | cons x l ih =>
    rw [List.cons_append, cumsumFrom, cumsumFrom, ih, List.cons_append, List.sum_cons, add_assoc]

theorem sameLen_mono {α : Type} {l l' : List (List α)} (h : ∀ a ∈ l', a ∈ l) (hl : sameLen l = true) :
    sameLen l' = true := by
  unfold sameLen at hl ⊢
  rw [List.all_eq_true] at hl ⊢
  intro a ha
  have := hl a (h a ha)
  rw [List.all_eq_true] at this ⊢
  exact fun b hb => this b (h b hb)

/-- The dictionaries of joined loopers. -/
theorem Joins.results (J : Joins A B C A.cpuNlp []) {R : SimResults} (hR : C.getResults = .ok R) :
    ∃ R1 R2, A.getResults = .ok R1 ∧ B.getResults = .ok R2 ∧ Joined R1 R2 R := by
  unfold Looper.getResults at hR ⊢
  simp only [bind_eq_ok, check_eq_ok] at hR
  obtain ⟨-, hs, hR⟩ := hR
  cases hR
  have hA : sameLen A.xSim = true := sameLen_mono (fun a ha => by rw [J.x]; simp [ha]) hs
  have hB : sameLen B.xSim = true := sameLen_mono (fun a ha => by
    rw [J.x]
    cases hb : B.xSim with
    | nil => rw [hb] at ha; cases ha
    | cons c l =>
      have := J.head
      rw [hb] at this ha
      rcases List.mem_cons.1 ha with rfl | ha
      · exact List.mem_append_left _ (List.mem_of_getLast? this.symm)
      · exact List.mem_append_right _ ha) hs
  refine ⟨_, _, by rw [hA]; rfl, by rw [hB]; rfl, J.x, J.head, J.steps, ?_, J.switch, ?_, J.theta, J.lam,
    J.alpha, J.z, J.sot, J.w, J.wAll, J.cost, J.status⟩
  · show 0 :: cumsumFrom 0 C.timeSteps = _
    rw [J.steps, cumsumFrom_append]
    simp
  · show C.cpuNlp.map _ = A.cpuNlp.map _ ++ B.cpuNlp.map _
    rw [J.cpu]
    simp

end

end Nosnoc
