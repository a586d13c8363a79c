import Verif.Props.Time
import Verif.Props.Tables
import Verif.Props.Colloc
/-
Helper lemmas for the dynamics properties.
-/
namespace Nosnoc
section
variable {colloc : IrkScheme → Nat → List ℝ} {o : Opts} {um : UserModel} {uo : Option UserOcp}
  {po : PreOpts} {m : PreModel} {oc : PreOcp} {P : Problem} {env : Env}

theorem matFun_eq (t : Tableau) (i j : Nat) : matFun t.A i j = ((t.a i j : ℚ) : ℝ) := rfl
theorem vecFun_eq (t : Tableau) (i : Nat) : vecFun t.b i = ((t.w i : ℚ) : ℝ) := rfl

/-- The last row of a Radau table is its weights. -/
theorem radau_last {n : Nat} {t : Tableau} (h : generateButcher n .radauIIA = .ok t) (j : Nat) :
    t.a (n - 1) j = t.w j := by
  have hv := C20_valid h
  have hs := (C20_radau_stiffly_accurate h).1
  rw [List.getLast?_eq_getElem?, hv.rows] at hs
  unfold Tableau.a Tableau.w
  rw [List.getD_eq_getElem?_getD (l := t.A), hs]
  rfl

/-- With a table, the end point is a stage exactly for Radau. -/
theorem OptsPre.rbe_iff (h : OptsPre colloc o po) (hr : o.irkRep ≠ .integral) :
    po.rbe = true ↔ o.scheme = .radauIIA := by
  obtain ⟨t, ht, _, _, htp⟩ := h.diff hr
  obtain ⟨c, hc, hb⟩ := h.rbe
  rw [hb, decide_eq_true_iff]
  rw [htp, List.getLast?_map] at hc
  cases hs : o.scheme with
  | radauIIA =>
    rw [hs] at ht
    have := (C20_radau_stiffly_accurate ht).2
    rw [this] at hc
    simp only [Option.map_some, Rat.cast_one, Option.some.injEq] at hc
    subst hc
    simp
  | gaussLegendre =>
    rw [hs] at ht
    obtain ⟨c', h1, h2⟩ := C20_gauss_interior ht
    rw [h1] at hc
    simp only [Option.map_some, Option.some.injEq] at hc
    subst hc
    simp only [reduceCtorEq, iff_false, not_lt]
    have : (c' : ℝ) < ((99 / 100 : ℚ) : ℝ) := by exact_mod_cast h2
    rw [abs_sub_comm, abs_of_nonneg (by push_cast at this; linarith)]
    push_cast at this
    norm_num
    linarith

theorem xVal_get {o : PreOpts} {d : Dims} {k e j i : Nat} (hi : i < d.nX) :
    (xVal o d k e j env).getD i 0 = if o.irkRep = .differential then
      env (startX o k e i) + ∑ r ∈ Finset.range o.nS, hVal o k e env * o.aIrk j r
        * env (.st1 .v k e r i) else env (.st1 .x k e j i) := by
  unfold xVal stageX
  split <;> simp [evalVec, vars, blk, List.getD_eq_getElem?_getD, hi, var]

theorem xEndVal_get {o : PreOpts} {d : Dims} {k e i : Nat} (hi : i < d.nX) :
    (xEndVal o d k e env).getD i 0 = env (endX o k e i) := by
  simp [xEndVal, List.getD_eq_getElem?_getD, hi]

theorem length_xVal {o : PreOpts} {d : Dims} {k e j : Nat} :
    (xVal o d k e j env).length = d.nX := by
  unfold xVal stageX
  split <;> simp [evalVec, vars, blk]

theorem length_xEndVal {o : PreOpts} {d : Dims} {k e : Nat} :
    (xEndVal o d k e env).length = d.nX := by simp [xEndVal]

theorem ext_getD {l l' : List ℝ} (h : l.length = l'.length)
    (hi : ∀ i < l.length, l.getD i 0 = l'.getD i 0) : l = l' := by
  refine List.ext_getElem h fun n h1 h2 => ?_
  have := hi n h1
  simpa [List.getD_eq_getElem?_getD, h1, h2] using this

end
end Nosnoc
