import Verif.Spec.Dynamics
import Verif.Proofs.Dynamics
import Verif.Proofs.Equiv
/-
C16, C17: the discretised dynamics at feasible points.
-/
namespace Nosnoc
open Polynomial
section
variable {colloc : IrkScheme → Nat → List ℝ} {o : Opts} {um : UserModel} {uo : Option UserOcp}
  {po : PreOpts} {m : PreModel} {oc : PreOcp} {P : Problem} {env : Env}

theorem startVal_get {o : PreOpts} {d : Dims} {k e i : Nat} (hi : i < d.nX) :
    (startVal o d k e env).getD i 0 = env (startX o k e i) := by
  unfold startVal startX prevFe
  by_cases he : 0 < e
  · rw [if_pos he, if_pos he, xEndVal_get hi]
  · rw [if_neg he, if_neg he]
    by_cases hk : 0 < k
    · rw [if_pos hk, if_pos hk, xEndVal_get hi]
    · rw [if_neg hk, if_neg hk]
      simp [List.getD_eq_getElem?_getD, hi]

/-- C16 / C17, DIFFERENTIAL and DIFFERENTIAL_LIFT_X: at a feasible point every element is a step of
the Runge-Kutta method returned by `generate_butcher_tableu`, with the user's right-hand side times
the speed of time, from the end of the previous element to the state that the rest of the problem
uses as the end of this one. -/
theorem C17_runge_kutta (h : SetupEx colloc o um uo po m oc P) (hf : P.form.Feasible env)
    (hr : o.irkRep ≠ .integral) : ∃ t, generateButcher o.nS o.scheme = .ok t ∧
    ∀ k e, HasFE po k e → RungeKuttaStep o.nS um.nX (fun i j => ((t.a i j : ℚ) : ℝ))
      (fun j => ((t.w j : ℚ) : ℝ)) (hVal po k e env) (startVal po m.dims k e env)
      (fun j => xVal po m.dims k e j env) (fun j i => env (.st1 .v k e j i))
      (fun j i => sotVal po k env * um.stageRhs po m.dims k e j i env)
      (xEndVal po m.dims k e env) := by
  have S := h.spec hf
  have ho := h.toSetup.built.opts
  have eo := h.toSetup.opts
  obtain ⟨t, ht, hA, hb, _⟩ := ho.diff hr
  obtain ⟨d1, _⟩ := h.toSetup.dims
  have eS : po.nS = o.nS := by rw [eo]
  have eR : po.irkRep = o.irkRep := by rw [eo]
  have hpos := h.nS
  refine ⟨t, ht, fun k e hk => ⟨?_, ?_, ?_⟩⟩
  · intro j hj i hi
    rw [← d1] at hi
    rw [← eS] at hj
    rw [xVal_get hi, startVal_get hi, Finset.mul_sum]
    have hsum : ∑ r ∈ Finset.range po.nS, hVal po k e env * po.aIrk j r * env (.st1 .v k e r i)
        = ∑ r ∈ Finset.range o.nS, hVal po k e env
          * (((t.a j r : ℚ) : ℝ) * env (.st1 .v k e r i)) := by
      rw [eS]
      refine Finset.sum_congr rfl fun r _ => ?_
      rw [hA, matFun_eq]; ring
    split
    · rw [hsum]
    · rename_i hd
      have hl : po.irkRep = .differentialLiftX := by
        cases hx : po.irkRep
        · exact absurd (eR.symm.trans hx) hr
        · exact absurd hx hd
        · rfl
      have := S.lift hl k e hk j hj i hi
      unfold LiftEq at this
      rw [this, hsum]
  · intro j hj i hi
    rw [← d1] at hi
    rw [← eS] at hj
    have := S.rk k e hk j hj i hi
    unfold RkEq at this
    rwa [if_neg (by rw [eR]; exact hr)] at this
  · intro i hi
    rw [← d1] at hi
    rw [xEndVal_get hi, startVal_get hi, Finset.mul_sum]
    unfold endX
    by_cases hown : ownEnd po = true
    · rw [if_pos hown]
      have := S.cont hown k e hk i hi
      unfold EndEq at this
      rw [if_neg (by rw [eR]; exact hr)] at this
      rw [this, eS]
      congr 1
      refine Finset.sum_congr rfl fun r _ => ?_
      rw [hb, vecFun_eq]; ring
    · rw [if_neg hown]
      simp only [ownEnd, Bool.or_eq_true, Bool.not_eq_true', decide_eq_true_eq, not_or,
        Bool.not_eq_false] at hown
      have hrad := (ho.rbe_iff hr).1 hown.1
      rw [hrad] at ht
      have hl : po.irkRep = .differentialLiftX := by
        cases hx : po.irkRep
        · exact absurd (eR.symm.trans hx) hr
        · exact absurd hx hown.2
        · rfl
      have := S.lift hl k e hk (po.nS - 1) (by omega) i hi
      unfold LiftEq at this
      rw [this, eS]
      congr 1
      refine Finset.sum_congr rfl fun r _ => ?_
      rw [hA, matFun_eq, radau_last ht]; ring

/-- C16 / C17, INTEGRAL: at a feasible point every element is a collocation step with the points
returned by casadi, from the end of the previous element to the state that the rest of the problem
uses as the end of this one. -/
theorem C17_collocation (h : SetupEx colloc o um uo po m oc P) (hf : P.form.Feasible env)
    (hr : o.irkRep = .integral) (hc : CollocOk (colloc o.scheme o.nS) o.nS) {k e : Nat}
    (hk : HasFE po k e) :
    CollocationStep o.nS um.nX (colloc o.scheme o.nS) (hVal po k e env)
      (startVal po m.dims k e env) (fun j => xVal po m.dims k e j env)
      (fun j i => sotVal po k env * um.stageRhs po m.dims k e j i env)
      (xEndVal po m.dims k e env) := by
  have S := h.spec hf
  have ho := h.toSetup.built.opts
  have eo := h.toSetup.opts
  obtain ⟨_, hC, hD, htp⟩ := ho.integral hr
  obtain ⟨d1, _⟩ := h.toSetup.dims
  have eS : po.nS = o.nS := by rw [eo]
  have eR : po.irkRep = .integral := by rw [eo]; exact hr
  have hpos := h.nS
  generalize hpts : colloc o.scheme o.nS = points at *
  have hlen := hc.length
  intro i hi
  rw [← d1] at hi
  obtain ⟨p, hp, hv⟩ := exists_through hc.nodup
    (fun j => if j = 0 then env (startX po k e i) else env (.st1 .x k e (j - 1) i))
  have h0 : p.eval 0 = env (startX po k e i) := by
    rw [← node_zero (points := points), hv 0 (by omega)]; rfl
  have hx : ∀ j < o.nS, p.eval (points.getD j 0) = env (.st1 .x k e j i) := by
    intro j hj
    rw [← node_succ, hv (j + 1) (by omega)]
    simp
  refine ⟨p, by omega, by rw [h0, startVal_get hi], ?_, ?_⟩
  · rw [xEndVal_get hi]
    unfold endX
    have hDp := C15_end_value hc.nodup hp
    by_cases hown : ownEnd po = true
    · rw [if_pos hown]
      have := S.cont hown k e hk i hi
      unfold EndEq at this
      rw [if_pos eR] at this
      rw [this, ← hDp, Finset.sum_range_succ', node_zero, h0, add_comm, hD, eS, hlen]
      congr 1
      refine Finset.sum_congr rfl fun r hr' => ?_
      rw [node_succ, hx r (Finset.mem_range.1 hr')]
    · rw [if_neg hown]
      simp only [ownEnd, Bool.or_eq_true, Bool.not_eq_true', decide_eq_true_eq, not_or,
        Bool.not_eq_false] at hown
      obtain ⟨c, hcl, hb⟩ := ho.rbe
      rw [htp] at hcl
      have hne : points ≠ [] := by rintro rfl; simp at hlen; omega
      have hcl' : points.getLast? = some c := by
        rw [List.getLast?_cons] at hcl
        obtain ⟨c', hc'⟩ := List.getLast?_isSome.2 hne |> Option.isSome_iff_exists.1
        rw [hc'] at hcl ⊢
        simpa using hcl
      have h1 : c = 1 := hc.last c hcl' (by
        have := hown.1
        rw [hb, decide_eq_true_iff] at this
        exact this)
      subst h1
      rw [← hDp, Finset.sum_eq_single points.length]
      · rw [C16_D_selects_last hc.nodup hcl' (by omega), if_pos rfl, one_mul, hlen, eS]
        have := hx (o.nS - 1) (by omega)
        rw [← this, ← node_succ]
        congr 1
        rw [Nat.sub_add_cancel hpos]
      · intro b hb hb'
        rw [C16_D_selects_last hc.nodup hcl' (Finset.mem_range.1 hb), if_neg hb', zero_mul]
      · intro hn; exact absurd (Finset.mem_range.2 (Nat.lt_succ_self _)) hn
  · intro j hj
    refine ⟨by rw [hx j hj, xVal_get hi, if_neg (by rw [eR]; decide)], ?_⟩
    have := S.rk k e hk j (by omega) i hi
    unfold RkEq at this
    rw [if_pos eR] at this
    rw [this, ← node_succ, ← C15_derivative hc.nodup hp (j + 1), Finset.sum_range_succ', node_zero,
      h0, add_comm, hC, eS, hlen]
    congr 1
    refine Finset.sum_congr rfl fun r hr' => ?_
    rw [node_succ, hx r (Finset.mem_range.1 hr')]

/-- C16: when the last stage is the end point, the state of the last stage is the end state, also in
the representation that has a separate end variable. -/
theorem C16_last_stage_is_end (h : SetupEx colloc o um uo po m oc P) (hf : P.form.Feasible env)
    (hb : po.rbe = true) {k e : Nat} (hk : HasFE po k e) :
    xVal po m.dims k e (o.nS - 1) env = xEndVal po m.dims k e env := by
  have S := h.spec hf
  have ho := h.toSetup.built.opts
  have eo := h.toSetup.opts
  have eS : po.nS = o.nS := by rw [eo]
  have eR : po.irkRep = o.irkRep := by rw [eo]
  refine ext_getD (by rw [length_xVal, length_xEndVal]) fun i hi => ?_
  rw [length_xVal] at hi
  by_cases hd : po.irkRep = .differential
  · have hr : o.irkRep ≠ .integral := by rw [← eR, hd]; decide
    obtain ⟨t, ht, hA, hbb, _⟩ := ho.diff hr
    rw [(ho.rbe_iff hr).1 hb] at ht
    have hown : ownEnd po = true := by simp [ownEnd, hd]
    have := S.cont hown k e hk i hi
    unfold EndEq at this
    rw [if_neg (by rw [eR]; exact hr)] at this
    rw [xVal_get hi, if_pos hd, xEndVal_get hi, endX, if_pos hown, this]
    congr 1
    refine Finset.sum_congr rfl fun r _ => ?_
    rw [hA, hbb, matFun_eq, vecFun_eq, radau_last ht]
  · have hown : ownEnd po = false := by simp [ownEnd, hd, hb]
    rw [xVal_get hi, if_neg hd, xEndVal_get hi, endX, if_neg (by simp [hown]), eS]

/-- C16: the path constraint at the end of an element is evaluated at its end state, in all
representations and for all schemes. -/
theorem C16_path_at_end (h : SetupEx colloc o um uo po m oc P) (hf : P.form.Feasible env)
    {k e : Nat} (hk : HasFE po k e) (he : e + 1 = nfe po k ∨ o.gPathAtFe = true) :
    PathSat (uo.getD UserOcp.trivial) m.dims k (xEndVal po m.dims k e env) env := by
  have S := h.spec hf
  have eo := h.toSetup.opts
  have eS : po.nS = o.nS := by rw [eo]
  have := S.pathEnd k e hk (by rw [eo]; exact he)
  by_cases hb : po.rbe = true
  · rw [if_pos hb, eS, C16_last_stage_is_end h hf hb hk] at this
    exact this
  · rwa [if_neg hb] at this

/-- The assumption on the collocation points holds for the two-stage Radau and Gauss points. -/
theorem demoColloc_ok (s : IrkScheme) : CollocOk (demoColloc s 2) 2 := by
  have hs : (17 / 10 : ℝ) < Real.sqrt 3 ∧ Real.sqrt 3 < 18 / 10 := by
    constructor
    · rw [Real.lt_sqrt (by norm_num)]; norm_num
    · rw [Real.sqrt_lt' (by norm_num)]; norm_num
  cases s
  · exact ⟨rfl, by norm_num [demoColloc], fun t ht _ => by simpa [demoColloc] using ht.symm⟩
  · refine ⟨rfl, ?_, fun t ht hlt => ?_⟩
    · simp only [demoColloc, List.nodup_cons, List.mem_cons, List.not_mem_nil, or_false, not_or,
        not_false_eq_true, List.nodup_nil, and_true]
      refine ⟨⟨?_, ?_⟩, ?_⟩
      · intro h; linarith
      · intro h; linarith
      · intro h; linarith
    · simp only [demoColloc, List.getLast?_cons_cons, List.getLast?_singleton,
        Option.some.injEq] at ht
      subst ht
      exfalso
      rw [abs_lt] at hlt
      norm_num at hlt
      linarith [hlt.1]

/-- The hypotheses are met: default options (INTEGRAL, Radau) and Gauss-Legendre in DIFFERENTIAL
form, with feasible points. -/
example : ∃ po m oc P, SetupEx demoColloc gaussOpts demoModel (some demoOcp) po m oc P ∧
    P.form.Feasible (demoEnv po) ∧ gaussOpts.irkRep ≠ .integral := by
  obtain ⟨po, m, oc, P, h, hf, _⟩ := demo_setup demo_gauss
  exact ⟨po, m, oc, P, h, hf, by simp [gaussOpts]⟩

end
end Nosnoc
