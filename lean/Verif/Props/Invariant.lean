import Verif.Props.Clock
import Verif.Props.ExactSim
import Verif.Props.Looper
import Verif.Spec.Invariant
/-
C121: conserved quantities.
-/
namespace Nosnoc
open Polynomial

section
variable {colloc : IrkScheme → Nat → List ℝ} {o : Opts} {um : UserModel} {uo : Option UserOcp}
  {po : PreOpts} {m : PreModel} {oc : PreOcp} {P : Problem} {orc : Oracle} {S : Solver}
  {r : SolveResult} {env : Env} {stop : Bool} {L L' : Looper} {N : Nat} {x0 : List ℝ} {pv : Option Arr}
  {wi : Option (List Arr)} {R : SimResults} {b : Bool}

/-- The derivative along the right-hand side of a stage. -/
theorem stageRhs_along (h : SetupEx colloc o um uo po m oc P) (hf : P.form.Feasible env)
    (hF : o.pss = .stewart → um.F.isSome = true)
    (hS : o.pss = .step → ∀ s < um.nSys, (um.Smat s).IsSign ∧ (um.Smat s).Partition)
    {q : List ℝ → Nat → ℝ} {g : (x z u p v : List ℝ) → ℝ} (hg : um.AlongField q g) {k e : Nat}
    (hk : HasFE po k e) {j : Nat} (hj : j < o.nS) :
    ∑ row ∈ Finset.range um.nX, q (xVal po m.dims k e j env) row * um.stageRhs po m.dims k e j row env
      = g (xVal po m.dims k e j env) (zVal m.dims k e j env)
      (uVal m.dims k env) (pVal m.dims k env) (vVal m.dims env) := by
  have hsp := h.spec hf
  have hj' : j < po.nS := h.e_nS ▸ hj
  have key : ∀ (w : Nat → Nat → ℝ), um.F.isSome = true →
      (∀ s < um.nSys, ∑ i ∈ Finset.range (um.Fmat s).nCols, w s i = 1) →
      ∀ x z u p v, ∑ row ∈ Finset.range um.nX, q x row * um.rhsStewart row x z u p v w = g x z u p v := by
    intro w hF hw x z u p v
    obtain ⟨Fs, hFs⟩ := Option.isSome_iff_exists.1 hF
    unfold UserModel.AlongField at hg
    rw [hFs] at hg
    obtain ⟨gs, g1, g2⟩ := hg
    rw [← g2]
    unfold UserModel.rhsStewart
    rw [Finset.sum_congr rfl fun row _ => Finset.mul_sum _ _ (q x row), Finset.sum_comm]
    refine Finset.sum_congr rfl fun s hs => ?_
    have hs := Finset.mem_range.1 hs
    rw [Finset.sum_congr rfl fun row _ => Finset.mul_sum _ _ (q x row), Finset.sum_comm]
    calc _ = ∑ i ∈ Finset.range (um.Fmat s).nCols, gs s x z u p v * w s i := by
            refine Finset.sum_congr rfl fun i hi => ?_
            rw [← g1 s hs i (Finset.mem_range.1 hi), Finset.sum_mul]
            exact Finset.sum_congr rfl fun row _ => by ring
      _ = _ := by rw [← Finset.mul_sum, hw s hs, mul_one]
  cases hp : o.pss with
  | stewart =>
    have hp' := h.e_pss.trans hp
    unfold UserModel.stageRhs
    rw [hp']
    exact key _ (hF hp) (fun s hs => (hsp.alg k e hk j hj').2.1 hp' s hs) _ _ _ _ _
  | step =>
    have hp' := h.e_pss.trans hp
    unfold UserModel.stageRhs
    rw [hp']
    cases hFs : um.F with
    | some Fs =>
      have hF' : um.F.isSome = true := by rw [hFs]; rfl
      refine key _ hF' (fun s hs => ?_) _ _ _ _ _
      rw [← (h.toSetup.shapes_step hp' hF' hs).1]
      exact sum_weights (hS hp s hs).1 (hS hp s hs).2 _
    | none =>
      unfold UserModel.AlongField at hg
      rw [hFs] at hg
      cases hfx : um.fx with
      | some f =>
        rw [hfx] at hg
        exact hg _ _ _ _ _ _
      | none =>
        rw [hfx] at hg
        exact hg.elim

/-- C121, linear functions: over every element of every feasible point, for every value of the homotopy
parameter, a linear function of the state that is conserved in every region keeps its value. -/
theorem C121_linear_element (h : SetupEx colloc o um uo po m oc P) (hf : P.form.Feasible env)
    (hF : o.pss = .stewart → um.F.isSome = true)
    (hS : o.pss = .step → ∀ s < um.nSys, (um.Smat s).IsSign ∧ (um.Smat s).Partition)
    (hcol : o.irkRep = .integral → CollocOk (colloc o.scheme o.nS) o.nS)
    {c : Nat → ℝ} (hg : um.AlongField (fun _ => c) fun _ _ _ _ _ => 0) {k e : Nat} (hk : HasFE po k e) :
    linFun um.nX c (xEndVal po m.dims k e env) = linFun um.nX c (startVal po m.dims k e env) := by
  have hr := fun j hj => stageRhs_along h hf hF hS hg (j := j) hk hj
  beta_reduce at hr
  by_cases hrep : o.irkRep = .integral
  · have hst := C17_collocation h hf hrep (hcol hrep) hk
    have : ∀ i, ∃ p : ℝ[X], i < um.nX → p.natDegree ≤ o.nS ∧
        p.eval 0 = (startVal po m.dims k e env).getD i 0 ∧ p.eval 1 = (xEndVal po m.dims k e env).getD i 0 ∧
        ∀ j < o.nS, (derivative p).eval ((colloc o.scheme o.nS).getD j 0)
          = hVal po k e env * (sotVal po k env * um.stageRhs po m.dims k e j i env) := by
      intro i
      by_cases hi : i < um.nX
      · obtain ⟨p, p1, p2, p3, p4⟩ := hst i hi
        exact ⟨p, fun _ => ⟨p1, p2, p3, fun j hj => (p4 j hj).2⟩⟩
      · exact ⟨0, fun h => absurd h hi⟩
    choose p hp using this
    set Q : ℝ[X] := ∑ i ∈ Finset.range um.nX, C (c i) * p i with hQ
    have hdeg : Q.natDegree ≤ o.nS := by
      refine natDegree_sum_le_of_forall_le _ _ fun i hi => ?_
      exact (natDegree_C_mul_le _ _).trans (hp i (Finset.mem_range.1 hi)).1
    have hd : derivative Q = 0 := by
      refine derivative_eq_of_colloc (hcol hrep) hdeg (by rw [natDegree_zero]; exact h.nS) fun j hj => ?_
      rw [hQ, derivative_sum, eval_finsetSum, eval_zero]
      calc _ = ∑ i ∈ Finset.range um.nX, hVal po k e env * sotVal po k env
              * (c i * um.stageRhs po m.dims k e j i env) := by
            refine Finset.sum_congr rfl fun i hi => ?_
            rw [derivative_C_mul, eval_mul, eval_C, (hp i (Finset.mem_range.1 hi)).2.2.2 j hj]
            ring
        _ = 0 := by rw [← Finset.mul_sum, hr j hj, mul_zero]
    have hc := eq_C_of_natDegree_eq_zero (natDegree_eq_zero_of_derivative_eq_zero hd)
    have e1 : Q.eval 1 = Q.eval 0 := by rw [hc]; simp
    rw [hQ, eval_finsetSum, eval_finsetSum] at e1
    unfold linFun
    simp only [eval_mul, eval_C] at e1
    calc _ = ∑ i ∈ Finset.range um.nX, c i * (p i).eval 1 :=
          Finset.sum_congr rfl fun i hi => by rw [(hp i (Finset.mem_range.1 hi)).2.2.1]
      _ = _ := e1
      _ = _ := Finset.sum_congr rfl fun i hi => by rw [(hp i (Finset.mem_range.1 hi)).2.1]
  · obtain ⟨t, ht, hst⟩ := C17_runge_kutta h hf hrep
    have hst := hst k e hk
    unfold linFun
    have : ∑ i ∈ Finset.range um.nX, c i * ∑ j ∈ Finset.range o.nS, ((t.w j : ℚ) : ℝ) * env (.st1 .v k e j i)
        = 0 := by
      rw [Finset.sum_congr rfl fun i _ => Finset.mul_sum _ _ (c i), Finset.sum_comm]
      refine Finset.sum_eq_zero fun j hj => ?_
      have hj := Finset.mem_range.1 hj
      rw [← mul_zero (((t.w j : ℚ) : ℝ) * sotVal po k env), ← hr j hj, Finset.mul_sum]
      refine Finset.sum_congr rfl fun i hi => ?_
      rw [hst.slope j hj i (Finset.mem_range.1 hi)]
      ring
    rw [Finset.sum_congr (g := fun i => c i * (startVal po m.dims k e env).getD i 0 + hVal po k e env *
        (c i * ∑ j ∈ Finset.range o.nS, ((t.w j : ℚ) : ℝ) * env (.st1 .v k e j i))) rfl fun i hi => by
        rw [hst.finish i (Finset.mem_range.1 hi)]; ring,
      Finset.sum_add_distrib, ← Finset.mul_sum, this]
    ring

theorem deriv_quad (n : Nat) (M : Nat → Nat → ℝ) (c : Nat → ℝ) (p : Nat → ℝ[X]) (X : List ℝ) (t : ℝ)
    (hX : ∀ i < n, (p i).eval t = X.getD i 0) :
    (derivative (∑ i ∈ Finset.range n, ∑ j ∈ Finset.range n, C (M i j) * p i * p j
      + ∑ i ∈ Finset.range n, C (c i) * p i)).eval t
      = ∑ i ∈ Finset.range n, quadGrad n M c X i * (derivative (p i)).eval t := by
  rw [derivative_add, eval_add, derivative_sum, eval_finsetSum, derivative_sum, eval_finsetSum]
  unfold quadGrad
  rw [Finset.sum_congr (g := fun i => (∑ j ∈ Finset.range n, (M i j + M j i) * X.getD j 0)
      * (derivative (p i)).eval t + c i * (derivative (p i)).eval t)
      (f := fun i => (∑ j ∈ Finset.range n, (M i j + M j i) * X.getD j 0 + c i) * (derivative (p i)).eval t)
      rfl fun i _ => by ring, Finset.sum_add_distrib]
  congr 1
  · have e1 : ∀ i ∈ Finset.range n, (derivative (∑ j ∈ Finset.range n, C (M i j) * p i * p j)).eval t
        = ∑ j ∈ Finset.range n, (M i j * X.getD j 0 * (derivative (p i)).eval t
          + M i j * X.getD i 0 * (derivative (p j)).eval t) := by
      intro i hi
      rw [derivative_sum, eval_finsetSum]
      refine Finset.sum_congr rfl fun j hj => ?_
      rw [derivative_mul, derivative_C_mul]
      simp only [eval_add, eval_mul, eval_C]
      rw [hX i (Finset.mem_range.1 hi), hX j (Finset.mem_range.1 hj)]
      ring
    rw [Finset.sum_congr rfl e1, Finset.sum_congr rfl fun i _ => Finset.sum_add_distrib, Finset.sum_add_distrib,
      Finset.sum_comm (f := fun i j => M i j * X.getD i 0 * (derivative (p j)).eval t), ← Finset.sum_add_distrib]
    refine Finset.sum_congr rfl fun i _ => ?_
    rw [← Finset.sum_add_distrib, Finset.sum_mul]
    exact Finset.sum_congr rfl fun j _ => by ring
  · refine Finset.sum_congr rfl fun i _ => ?_
    rw [derivative_C_mul, eval_mul, eval_C]

/-- C121, quadratic functions: with INTEGRAL and Gauss-Legendre points, over every element of every feasible
point, for every value of the homotopy parameter, a quadratic function of the state that is conserved in
every region keeps its value. -/
theorem C121_quadratic_element (h : SetupEx colloc o um uo po m oc P) (hf : P.form.Feasible env)
    (hF : o.pss = .stewart → um.F.isSome = true)
    (hS : o.pss = .step → ∀ s < um.nSys, (um.Smat s).IsSign ∧ (um.Smat s).Partition)
    (hrep : o.irkRep = .integral) (hcol : CollocOk (colloc o.scheme o.nS) o.nS)
    (hG : GaussPoints (colloc o.scheme o.nS) o.nS)
    {M : Nat → Nat → ℝ} {c : Nat → ℝ} (hg : um.AlongField (quadGrad um.nX M c) fun _ _ _ _ _ => 0)
    {k e : Nat} (hk : HasFE po k e) :
    quadFun um.nX M c (xEndVal po m.dims k e env) = quadFun um.nX M c (startVal po m.dims k e env) := by
  have hr := fun j hj => stageRhs_along h hf hF hS hg (j := j) hk hj
  beta_reduce at hr
  have hst := C17_collocation h hf hrep hcol hk
  have : ∀ i, ∃ p : ℝ[X], i < um.nX → p.natDegree ≤ o.nS ∧
      p.eval 0 = (startVal po m.dims k e env).getD i 0 ∧ p.eval 1 = (xEndVal po m.dims k e env).getD i 0 ∧
      ∀ j < o.nS, p.eval ((colloc o.scheme o.nS).getD j 0) = (xVal po m.dims k e j env).getD i 0 ∧
        (derivative p).eval ((colloc o.scheme o.nS).getD j 0)
        = hVal po k e env * (sotVal po k env * um.stageRhs po m.dims k e j i env) := by
    intro i
    by_cases hi : i < um.nX
    · obtain ⟨p, p1, p2, p3, p4⟩ := hst i hi
      exact ⟨p, fun _ => ⟨p1, p2, p3, fun j hj => p4 j hj⟩⟩
    · exact ⟨0, fun h => absurd h hi⟩
  choose p hp using this
  obtain ⟨b, hb⟩ := hG
  set Q : ℝ[X] := ∑ i ∈ Finset.range um.nX, ∑ j ∈ Finset.range um.nX, C (M i j) * p i * p j
      + ∑ i ∈ Finset.range um.nX, C (c i) * p i with hQ
  have hdeg : Q.natDegree ≤ 2 * o.nS := by
    refine (natDegree_add_le _ _).trans (max_le ?_ ?_)
    · refine natDegree_sum_le_of_forall_le _ _ fun i hi => ?_
      refine natDegree_sum_le_of_forall_le _ _ fun j hj => ?_
      have h1 := (hp i (Finset.mem_range.1 hi)).1
      have h2 := (hp j (Finset.mem_range.1 hj)).1
      have h3 := natDegree_C_mul_le (M i j) (p i)
      have h4 := natDegree_mul_le (p := C (M i j) * p i) (q := p j)
      omega
    · refine natDegree_sum_le_of_forall_le _ _ fun i hi => ?_
      have h1 := (hp i (Finset.mem_range.1 hi)).1
      have h3 := natDegree_C_mul_le (c i) (p i)
      omega
  have hq := hb Q hdeg
  rw [Finset.sum_eq_zero fun j hj => by
    have hj := Finset.mem_range.1 hj
    rw [hQ, deriv_quad um.nX M c p (xVal po m.dims k e j env) _ fun i hi => ((hp i hi).2.2.2 j hj).1]
    rw [Finset.sum_congr (g := fun i => hVal po k e env * sotVal po k env *
        (quadGrad um.nX M c (xVal po m.dims k e j env) i * um.stageRhs po m.dims k e j i env)) rfl fun i hi => by
        rw [((hp i (Finset.mem_range.1 hi)).2.2.2 j hj).2]; ring, ← Finset.mul_sum, hr j hj]
    simp] at hq
  have ev : ∀ (t : ℝ) (x : List ℝ), (∀ i < um.nX, (p i).eval t = x.getD i 0) →
      Q.eval t = quadFun um.nX M c x := by
    intro t x hx
    rw [hQ, eval_add, eval_finsetSum, eval_finsetSum]
    unfold quadFun linFun
    congr 1
    · refine Finset.sum_congr rfl fun i hi => ?_
      rw [eval_finsetSum]
      refine Finset.sum_congr rfl fun j hj => ?_
      simp only [eval_mul, eval_C]
      rw [hx i (Finset.mem_range.1 hi), hx j (Finset.mem_range.1 hj)]
    · refine Finset.sum_congr rfl fun i hi => ?_
      rw [eval_mul, eval_C, hx i (Finset.mem_range.1 hi)]
  rw [← ev 1 _ fun i hi => (hp i hi).2.2.1, ← ev 0 _ fun i hi => (hp i hi).2.1]
  linarith

/-- Stepping along the elements of a solve. -/
theorem xTraj_chain (h : Setup colloc o um uo po m oc P) (hL : o.nfeAfter.length = o.nStages)
    {x0 : List ℝ} {res : Results} (hR : ResultsSpec po m.dims x0 env res)
    (hx : x0 = (List.range m.dims.nX).map fun i => env (.x0 i)) {rel : List ℝ → List ℝ → Prop}
    (hstep : ∀ k e, HasFE po k e → rel (startVal po m.dims k e env) (xEndVal po m.dims k e env)) :
    List.IsChain rel res.xTraj := by
  rw [List.isChain_iff_getElem]
  intro n hn
  have hn' : n < (elements po).length := by
    rw [hR.xTraj] at hn
    simp only [List.length_cons, List.length_map] at hn
    omega
  obtain ⟨hk, x1, x2, -⟩ := xTraj_pos h hL hR hx (List.getElem?_eq_getElem hn')
  have y1 := (List.getElem?_eq_some_iff.1 x1).2
  have y2 := (List.getElem?_eq_some_iff.1 x2).2
  rw [y1, y2]
  exact hstep _ _ hk

/-- A chain continued. -/
theorem chain_continue {α : Type} {rel : α → α → Prop} {l t : List α} {s : α} (hl : l.IsChain rel)
    (hs : l.getLast? = some s) (ht : (s :: t).IsChain rel) : (l ++ t).IsChain rel := by
  obtain ⟨l', rfl⟩ := List.getLast?_eq_some_iff.1 hs
  rw [List.append_assoc]
  exact List.isChain_split.2 ⟨hl, ht⟩

/-- Relations between neighbouring states of every SUCCESS hold between neighbouring states of simulations. -/
theorem sim_chain (h : SetupEx colloc o um uo po m oc P) (hL : o.nfeAfter.length = o.nStages)
    (hS : Reachable colloc o um uo orc S) (hc : Looper.create S x0 N pv wi = .ok L)
    (hrun : L.run orc stop = (L', .ok b)) (hR : L'.getResults = .ok R)
    (hst : ∀ s ∈ R.status, s = .success) {rel : List ℝ → List ℝ → Prop}
    (hstep : ∀ (T : Solver) (r : SolveResult), Reachable colloc o um uo orc T → (T.solve orc).2 = .ok r →
      r.status = .success → r.res.xTraj.IsChain rel) :
    R.xSim.IsChain rel := by
  have h' := h.toSetup
  obtain ⟨result, calls, sim, h1, h2, rfl⟩ := run_sim h' hL hS hc hrun hR
  have key : ∀ j ≤ N, (loopAt orc L 0 j).xSim.IsChain rel := by
    intro j
    induction j with
    | zero =>
      intro _
      rw [(h2 0 (by omega)).states]
      simp
    | succ j ih =>
      intro hj
      obtain ⟨a1, -, a3, a4, a5⟩ := h1 j (by omega)
      have hok := (sim.solved j (by omega)).1
      have hsu : (result j).status = .success := by
        apply hst
        rw [sim.status]
        exact List.mem_map.2 ⟨j, List.mem_range.2 (by omega), rfl⟩
      have ht := hstep _ _ a1 hok hsu
      have hs := C58_results_meaning h' hL a3 a4 []
      have hx : (result j).res.xTraj = (beforeStep orc L j).m.x0 :: (result j).res.xList := by
        rw [hs.xTraj, hs.xList]
      have hcur : (beforeStep orc L j).m.x0 = (loopAt orc L 0 j).xcurrent :=
        (sets_ok (colloc := colloc) (o := o) (um := um) (uo := uo) (orc := orc) a5).2.1
      have I := h2 j (by omega)
      have hlast : (loopAt orc L 0 j).xSim.getLast? = some (loopAt orc L 0 j).xcurrent := by
        rw [List.getLast?_eq_getElem?, I.number, ← I.cur]
        congr 1; omega
      rw [(h2 (j + 1) hj).states, flatMap_range_succ, ← List.cons_append, ← I.states]
      refine chain_continue (ih (by omega)) hlast ?_
      rw [← hcur, ← hx]
      exact ht
  have hk := key N le_rfl
  have e1 : R.xSim = (loopAt orc L 0 N).xSim := by rw [sim.states, (h2 N le_rfl).states]
  rw [e1]
  exact hk

/-- Values of a function that is kept from state to state. -/
theorem chain_const {V : List ℝ → ℝ} {l : List (List ℝ)} (hl : l.IsChain fun x y => V y = V x) {s : List ℝ}
    (hs : l.head? = some s) : ∀ x ∈ l, V x = V s := by
  induction l generalizing s with
  | nil => cases hs
  | cons a l ih =>
    cases hs
    intro x hx
    rcases List.mem_cons.1 hx with rfl | hx
    · rfl
    cases l with
    | nil => cases hx
    | cons a' l =>
      rw [List.isChain_cons_cons] at hl
      rw [ih hl.2 rfl x hx, hl.1]

/-- The feasible point behind a SUCCESS, and its initial state. -/
theorem success_env (h : SetupEx colloc o um uo po m oc P) (hS : Reachable colloc o um uo orc S)
    (hL : o.nfeAfter.length = o.nStages) (hon : orc.Exact P) (hok : (S.solve orc).2 = .ok r)
    (hs : r.status = .success) (hb : o.mpcc ≠ .boolean) :
    ∃ env, P.form.Feasible env ∧ ResultsSpec po m.dims S.m.x0 env r.res ∧
      S.m.x0 = (List.range m.dims.nX).map fun i => env (.x0 i) := by
  have h' := h.toSetup
  have hi := hS.inv h'
  obtain ⟨hrd, -⟩ := ready_of_ok h' hi hok
  obtain ⟨env, sigma, tau, f1, -, hR, f4, -⟩ := C87_success_is_feasible h hS hL hon hok hs
  have hf : P.form.Feasible env := (h.iff hb).2 f1
  refine ⟨env, hf, hR, ?_⟩
  have : ∀ i ∈ List.range m.dims.nX, env (.x0 i) = S.m.x0.getD i 0 := by
    intro i hi
    rw [f4 _ (x0_mem h' (List.mem_range.1 hi)) fun hc => hc]; rfl
  rw [List.map_congr_left this, h'.dims.1, ← hrd.x0]
  exact (map_getD_range _).symm

/-- Neighbouring states of a SUCCESS. -/
theorem success_chain (h : SetupEx colloc o um uo po m oc P) (hL : o.nfeAfter.length = o.nStages)
    (hon : orc.Exact P) (hb : o.mpcc ≠ .boolean) {rel : List ℝ → List ℝ → Prop}
    (hstep : ∀ env, P.form.Feasible env → ∀ k e, HasFE po k e →
      rel (startVal po m.dims k e env) (xEndVal po m.dims k e env)) (T : Solver) (r : SolveResult)
    (hT : Reachable colloc o um uo orc T) (hok : (T.solve orc).2 = .ok r) (hs : r.status = .success) :
    r.res.xTraj.IsChain rel ∧ r.res.xTraj.head? = some T.m.x0 := by
  obtain ⟨env, hf, hR, hx⟩ := success_env h hT hL hon hok hs hb
  exact ⟨xTraj_chain h.toSetup hL hR hx fun k e hk => hstep env hf k e hk, by rw [hR.xTraj]; rfl⟩

/-- C121: with an NLP solver whose accepted points satisfy their constraints, in the trajectory of every
SUCCESS, a linear function of the state that is conserved in every region has the same value at all reported
states; so has a quadratic one with INTEGRAL and Gauss-Legendre points. -/
theorem C121_reported (h : SetupEx colloc o um uo po m oc P) (hS : Reachable colloc o um uo orc S)
    (hL : o.nfeAfter.length = o.nStages) (hon : orc.Exact P) (hok : (S.solve orc).2 = .ok r)
    (hs : r.status = .success) (hb : o.mpcc ≠ .boolean)
    (hF : o.pss = .stewart → um.F.isSome = true)
    (hsg : o.pss = .step → ∀ s < um.nSys, (um.Smat s).IsSign ∧ (um.Smat s).Partition)
    (hcol : o.irkRep = .integral → CollocOk (colloc o.scheme o.nS) o.nS) :
    (∀ c, um.AlongField (fun _ => c) (fun _ _ _ _ _ => 0) →
      ∀ x ∈ r.res.xTraj, linFun um.nX c x = linFun um.nX c S.m.x0) ∧
    (o.irkRep = .integral → GaussPoints (colloc o.scheme o.nS) o.nS →
      ∀ M c, um.AlongField (quadGrad um.nX M c) (fun _ _ _ _ _ => 0) →
      ∀ x ∈ r.res.xTraj, quadFun um.nX M c x = quadFun um.nX M c S.m.x0) := by
  refine ⟨fun c hg => ?_, fun hrep hG M c hg => ?_⟩
  · obtain ⟨hc, hh⟩ := success_chain (rel := fun x y => linFun um.nX c y = linFun um.nX c x) h hL hon hb
      (fun env hf k e hk => C121_linear_element h hf hF hsg hcol hg hk) S r hS hok hs
    exact chain_const hc hh
  · obtain ⟨hc, hh⟩ := success_chain (rel := fun x y => quadFun um.nX M c y = quadFun um.nX M c x) h hL hon hb
      (fun env hf k e hk => C121_quadratic_element h hf hF hsg hrep (hcol hrep) hG hg hk) S r hS hok hs
    exact chain_const hc hh

/-- C121 for simulations: if all steps are reported as SUCCESS, the function has its initial value at all
states in `X_sim`. -/
theorem C121_simulation (h : SetupEx colloc o um uo po m oc P) (hS : Reachable colloc o um uo orc S)
    (hL : o.nfeAfter.length = o.nStages) (hon : orc.Exact P)
    (hc : Looper.create S x0 N pv wi = .ok L)
    (hrun : L.run orc stop = (L', .ok b)) (hR : L'.getResults = .ok R)
    (hst : ∀ s ∈ R.status, s = .success) (hb : o.mpcc ≠ .boolean)
    (hF : o.pss = .stewart → um.F.isSome = true)
    (hsg : o.pss = .step → ∀ s < um.nSys, (um.Smat s).IsSign ∧ (um.Smat s).Partition)
    (hcol : o.irkRep = .integral → CollocOk (colloc o.scheme o.nS) o.nS) :
    (∀ c, um.AlongField (fun _ => c) (fun _ _ _ _ _ => 0) →
      ∀ x ∈ R.xSim, linFun um.nX c x = linFun um.nX c x0) ∧
    (o.irkRep = .integral → GaussPoints (colloc o.scheme o.nS) o.nS →
      ∀ M c, um.AlongField (quadGrad um.nX M c) (fun _ _ _ _ _ => 0) →
      ∀ x ∈ R.xSim, quadFun um.nX M c x = quadFun um.nX M c x0) := by
  have hh : R.xSim.head? = some x0 := by
    obtain ⟨result, calls, sim, -⟩ := run_sim h.toSetup hL hS hc hrun hR
    rw [sim.states]; rfl
  refine ⟨fun c hg => ?_, fun hrep hG M c hg => ?_⟩
  · exact chain_const (sim_chain (rel := fun x y => linFun um.nX c y = linFun um.nX c x) h hL hS hc hrun hR hst
      fun T r hT hok hs => (success_chain h hL hon hb
        (fun env hf k e hk => C121_linear_element h hf hF hsg hcol hg hk) T r hT hok hs).1) hh
  · exact chain_const (sim_chain (rel := fun x y => quadFun um.nX M c y = quadFun um.nX M c x) h hL hS hc hrun hR
      hst fun T r hT hok hs => (success_chain h hL hon hb
        (fun env hf k e hk => C121_quadratic_element h hf hF hsg hrep (hcol hrep) hG hg hk) T r hT hok hs).1) hh

end

end Nosnoc
