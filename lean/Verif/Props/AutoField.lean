import Verif.Props.AutoModel
/-
C76 for the `NosnocModel` that `reformulate()` returns: the columns of its `F`, its switching functions and sign
matrices, and its `f_x` have the values of the original right-hand side.
-/
namespace Nosnoc
open Spec

section
variable {I : Interp} {nX nU : Nat} {x0 : List ℝ}

/-- The value of a right-hand side at a state and a control. -/
noncomputable def SX.at (I : Interp) (e : SX) (x u : List ℝ) : ℝ := e.eval I (leafEnv x u fun _ => 0)

theorem switch_at {c : SX} (h : ∀ l ∈ c.leaves, ∃ k, l = .x k) (x u : List ℝ) (al : String → ℝ) :
    c.eval I (leafEnv x u al) = c.eval I (leafEnv x [] fun _ => 0) := by
  refine eval_congr fun l hl => ?_
  obtain ⟨k, rfl⟩ := h l hl
  rfl

/-- C76, the model returned on the branch for Filippov systems: at every state and control the columns of `F`, taken
in the regions the state lies in (`S c > 0`), add up to the original right-hand side; the entries refer to the model
object itself.  Conditions as in `C76_filippov_partial`; and off the switching surfaces there is such a choice of
regions. -/
theorem C76_filippov_model_partial {E : AutoEnv} {rows : List SX} {out : AutoOut} {s' : AutoState}
    (hr : reformulate E rows .init = .ok (out, s')) (hd : detectAdditive rows = false)
    (ho : SetOrder E) (h1 : OneEach rows) (hsd : NodesSound E rows) (hsh : NodesShared E rows)
    (hx : StateSwitched rows) {um : UserModel} (hum : um = out.toModel I nX nU x0) (x u : List ℝ) :
    (∀ reg : Nat → Nat,
      (∀ s < um.nSys, reg s < (um.Smat s).rows ∧ 0 < (um.Smat s).entry (reg s) 0 * (um.cVec s).entry 0 x [] []) →
      ∀ i (hi : i < rows.length),
        ∑ s ∈ Finset.range um.nSys, (um.Fmat s).entry i (reg s) x [] u [] [] = rows[i].at I x u) ∧
    ((∀ s < um.nSys, (um.cVec s).entry 0 x [] [] ≠ 0) → ∃ reg : Nat → Nat, ∀ s < um.nSys,
      reg s < (um.Smat s).rows ∧ 0 < (um.Smat s).entry (reg s) 0 * (um.cVec s).entry 0 x [] []) := by
  subst hum
  unfold reformulate at hr
  rw [if_neg (by simp [hd])] at hr
  simp only [bind_eq_ok] at hr
  obtain ⟨s'', h2, h3⟩ := hr
  cases h3
  obtain ⟨common, collated, hl⟩ := linear_run h2
  obtain ⟨a1, a2, -⟩ := hl.length
  obtain ⟨f1, f2, -⟩ := hl.facts ho
  set um := (AutoOut.filippov s'.F s'.c s'.S).toModel I nX nU x0 with hum
  have hn : um.nSys = s'.c.length := by
    rw [hum]; simp [UserModel.nSys, AutoOut.toModel, a1]
  have hF : ∀ s < s'.c.length, ∀ i j, (um.Fmat s).entry i j x [] u [] []
      = (Spec.entry (s'.F.getD s []) i j).eval I (leafEnv x u fun _ => 0) := by
    intro s hs i j
    have hs' : s < s'.F.length := by omega
    rw [hum]
    simp only [UserModel.Fmat, AutoOut.toModel, Option.getD_some, List.getD, List.getElem?_map,
      List.getElem?_eq_getElem hs', Option.map_some, Spec.entry]
  have hS : ∀ s < s'.c.length, s'.S.getD s [] = [1, -1] := by
    intro s hs
    have hs' : s < s'.S.length := by omega
    rw [List.getD, List.getElem?_eq_getElem hs']
    exact f1 _ (List.getElem_mem hs')
  have hSm : ∀ s < s'.c.length, (um.Smat s).rows = 2 ∧
      ∀ j, (um.Smat s).entry j 0 = ((([1, -1] : List Int).getD j 0 : Int) : ℝ) := by
    intro s hs
    have hs' : s < s'.S.length := by omega
    have e := hS s hs
    rw [List.getD, List.getElem?_eq_getElem hs', Option.getD_some] at e
    rw [hum]
    simp only [UserModel.Smat, AutoOut.toModel, Option.getD_some, List.getD, List.getElem?_map,
      List.getElem?_eq_getElem hs', Option.map_some, e]
    exact ⟨rfl, fun _ => trivial⟩
  have hc : ∀ s < s'.c.length, (um.cVec s).entry 0 x [] []
      = (s'.c.getD s (.num 0)).eval I (leafEnv x u fun _ => 0) := by
    intro s hs
    rw [hum]
    simp only [UserModel.cVec, AutoOut.toModel, Option.getD_some, List.getD, List.getElem?_map,
      List.getElem?_eq_getElem hs, Option.map_some, SX.toUVec]
    obtain ⟨e, he, t, ht, h⟩ := f2 _ (List.getElem_mem hs)
    rw [switch_at (u := u)]
    rw [h]
    exact hx e he t ht
  constructor
  · intro reg hreg i hi
    rw [hn] at hreg ⊢
    have hoff : ∀ e ∈ s'.c, e.eval I (leafEnv x u fun _ => 0) ≠ 0 := by
      intro e he
      obtain ⟨s, hs, rfl⟩ := List.getElem_of_mem he
      have := (hreg s hs).2
      rw [hc s hs, List.getD, List.getElem?_eq_getElem hs, Option.getD_some] at this
      exact fun h0 => by rw [h0, mul_zero] at this; exact lt_irrefl _ this
    have hact : ∀ s < s'.c.length, Active (s'.S.getD s [])
        ((s'.c.getD s (.num 0)).eval I (leafEnv x u fun _ => 0))
        (((List.range s'.c.length).map reg).getD s 0) := by
      intro s hs
      obtain ⟨g1, g2⟩ := hreg s hs
      obtain ⟨q1, q2⟩ := hSm s hs
      rw [q1] at g1
      rw [q2, hc s hs] at g2
      have e2 : ((List.range s'.c.length).map reg).getD s 0 = reg s := by
        simp only [List.getD]
        rw [List.getElem?_map, List.getElem?_range hs]
        rfl
      rw [hS s hs, e2]
      generalize reg s = j at g1 g2
      obtain rfl | rfl : j = 0 ∨ j = 1 := by omega
      · exact ⟨1, rfl, g2⟩
      · exact ⟨-1, rfl, g2⟩
    have := hl.value ho h1 hsd hsh hoff hi hact
    unfold SX.at
    rw [← this, Finset.sum_range]
    rw [← List.sum_ofFn]
    congr 1
    refine List.ext_getElem (by simp) fun s q1 q2 => ?_
    simp only [List.length_ofFn] at q1
    rw [List.getElem_ofFn, List.getElem_map, List.getElem_range, hF s q1]
    congr 2
    simp only [List.getD]
    rw [List.getElem?_map, List.getElem?_range q1]
    rfl
  · intro hne
    rw [hn] at hne ⊢
    classical
    refine ⟨fun s => if 0 < (um.cVec s).entry 0 x [] [] then 0 else 1, fun s hs => ?_⟩
    obtain ⟨q1, q2⟩ := hSm s hs
    have := hne s hs
    beta_reduce
    rcases lt_or_gt_of_ne this with h | h
    · rw [if_neg (not_lt.2 h.le), q1, q2]
      refine ⟨by norm_num, ?_⟩
      show 0 < ((-1 : Int) : ℝ) * _
      push_cast
      linarith
    · rw [if_pos h, q1, q2]
      refine ⟨by norm_num, ?_⟩
      show 0 < ((1 : Int) : ℝ) * _
      push_cast
      linarith

theorem lookup_alphaSyms (n : Nat) {k m : Nat} (hk : k < m) (vals : List ℝ) :
    lookupAlpha (alphaSyms n m) vals (alphaName (n + k)) = vals.getD k 0 := by
  unfold lookupAlpha
  congr 1
  rw [List.findIdx_eq (by rw [alphaSyms_length]; exact hk)]
  constructor
  · simp [alphaSyms]
  · intro j hj
    simp only [alphaSyms, List.getElem_map, List.getElem_range, SX.leaf.injEq, Leaf.alpha.injEq, decide_eq_false_iff_not]
    intro h
    have := alphaName_inj h
    omega

/-- C76, the model returned on the branch for general inclusions: at every state and control off the switching
surfaces, `f_x` has the value of the original right-hand side if the multipliers of the switching functions have the
values of the step function (one above, zero below the surface). -/
theorem C76_general_model_partial {E : AutoEnv} {rows : List SX} {out : AutoOut} {s' : AutoState}
    (hr : reformulate E rows .init = .ok (out, s')) (hd : detectAdditive rows = true)
    (hu : ∀ e ∈ rows, UserExpr e) (hx : StateSwitched rows)
    {um : UserModel} (hum : um = out.toModel I nX nU x0) :
    ∃ f cs, um.fx = some f ∧ um.c = some cs ∧ um.alpha = some [cs.length] ∧
      ∀ (x u al : List ℝ),
        (∀ s < cs.length, (um.cVec s).entry 0 x [] [] ≠ 0 ∧ StepValue ((um.cVec s).entry 0 x [] []) (al.getD s 0)) →
        ∀ i (hi : i < rows.length), f.entry i x al [] u [] [] = rows[i].at I x u := by
  subst hum
  have hfull := hr
  unfold reformulate at hr
  rw [if_pos hd] at hr
  cases hr
  have hs := rebuildRows_state rows .init
  have hc : (rebuildRows rows .init).2.c = (rows.flatMap outer).map switchOf := by
    rw [hs]; simp [AutoState.extend, AutoState.init]
  have ha : (rebuildRows rows .init).2.alpha = alphaSyms 0 (rows.flatMap outer).length := by
    rw [hs]; simp [AutoState.extend, AutoState.init]
  refine ⟨_, _, rfl, rfl, ?_, ?_⟩
  · simp only [AutoOut.toModel, ha, hc, alphaSyms_length, List.length_map]
  intro x u al hal i hi
  set n := (rows.flatMap outer).length with hn
  replace hal := fun s (h : s < n) => hal s (by rw [List.length_map, hc, List.length_map]; exact h)
  set env := leafEnv x u (lookupAlpha (rebuildRows rows .init).2.alpha al) with henv
  have hcx : ∀ s (h : s < n), ∀ l ∈ (switchOf ((rows.flatMap outer)[s])).leaves, ∃ k, l = .x k := by
    intro s h
    have := List.getElem_mem h
    rw [List.mem_flatMap] at this
    obtain ⟨e, he, ht⟩ := this
    exact hx e he _ ht
  have hcv : ∀ s (h : s < n), (((AutoOut.general (rebuildRows rows .init).1 (rebuildRows rows .init).2.c
      (rebuildRows rows .init).2.alpha).toModel I nX nU x0).cVec s).entry 0 x [] []
      = (switchOf ((rows.flatMap outer)[s])).eval I env := by
    intro s h
    simp only [UserModel.cVec, AutoOut.toModel, Option.getD_some, List.getD, List.getElem?_map, hc,
      List.getElem?_eq_getElem h, Option.map_some, SX.toUVec]
    exact (switch_at (hcx s h) _ _ _).symm
  have hoff : OffSurfaces I env (.general (rebuildRows rows .init).1 (rebuildRows rows .init).2.c
      (rebuildRows rows .init).2.alpha) := by
    intro e he
    rw [hc] at he
    obtain ⟨s, hs', rfl⟩ := List.getElem_of_mem he
    rw [List.length_map] at hs'
    rw [List.getElem_map, ← hcv s hs']
    exact (hal s hs').1
  have hval : (rebuildRows rows .init).1.length = rows.length := rebuildRows_length _ _
  have hi' : i < (rebuildRows rows .init).1.length := by omega
  have := C76_general_partial (I := I) (env := env) hfull hd hoff hi
    (v := ((rebuildRows rows .init).1[i]).eval I env) ⟨?_, _, List.getElem?_eq_getElem hi', rfl⟩
  · simp only [List.getD, List.getElem?_eq_getElem hi', Option.getD_some]
    refine this.trans ?_
    refine eval_congr fun l hl => ?_
    cases l with
    | alpha m => exact absurd hl (hu _ (List.getElem_mem hi) m)
    | _ => rfl
  · unfold StepValues
    rw [List.forall₂_iff_get]
    rw [ha, hc]
    refine ⟨by rw [List.length_map, alphaSyms_length], fun s q1 q2 => ?_⟩
    have q1' : s < n := by rwa [List.length_map] at q1
    have e2 : ((alphaSyms 0 n).get ⟨s, q2⟩).eval I env = al.getD s 0 := by
      have : (alphaSyms 0 n).get ⟨s, q2⟩ = .leaf (.alpha (alphaName (0 + s))) := by simp [alphaSyms]
      rw [this, henv]
      show lookupAlpha _ al _ = _
      rw [ha, lookup_alphaSyms 0 q1']
    have e1 : (((rows.flatMap outer).map switchOf).get ⟨s, q1⟩).eval I env
        = (switchOf ((rows.flatMap outer)[s])).eval I env := by simp
    rw [e1, e2, ← hcv s q1']
    exact (hal s q1').2

/-- The hypotheses: `x0' = x1 - sign(x0)`, `x1' = x0` (general), and at `x = (2, 1)` the multiplier 1 is the value of
the step function. -/
example : ∃ rows : List SX, detectAdditive rows = true ∧ (∀ e ∈ rows, UserExpr e) ∧ StateSwitched rows ∧
    ∀ E : AutoEnv, ∃ out s', reformulate E rows .init = .ok (out, s') ∧
      ∃ cs, (out.toModel I 2 0 []).c = some cs ∧ cs.length = 1 ∧ ∀ s < cs.length,
        ((out.toModel I 2 0 []).cVec s).entry 0 [2, 1] [] [] ≠ 0 ∧
        StepValue (((out.toModel I 2 0 []).cVec s).entry 0 [2, 1] [] []) (([1] : List ℝ).getD s 0) := by
  refine ⟨[.bin .sub (.leaf (.x 1)) (.un .sign (.leaf (.x 0))), .leaf (.x 0)], rfl, ?_, ?_,
    fun E => ⟨_, _, rfl, _, rfl, rfl, ?_⟩⟩
  · intro e he n hn
    simp only [List.mem_cons, List.not_mem_nil, or_false] at he
    rcases he with rfl | rfl <;> simp [SX.leaves] at hn
  · intro e he t ht
    simp only [List.mem_cons, List.not_mem_nil, or_false] at he
    rcases he with rfl | rfl <;> simp [outer] at ht
    subst ht
    simp [switchOf, SX.leaves]
  · intro s hs
    obtain rfl : s = 0 := by
      have : s < 1 := hs
      omega
    show (2 : ℝ) ≠ 0 ∧ StepValue 2 1
    exact ⟨by norm_num, fun _ => rfl, fun h => by norm_num at h⟩

end
end Nosnoc
