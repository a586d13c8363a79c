import Verif.Proofs.AutoLinear
import Verif.Props.Accept
/-
C76, C77, C82: the models returned by `reformulate()`.
-/
namespace Nosnoc
open Spec

variable {I : Interp} {env : Leaf → ℝ}

/-- C76, if `reformulate()` takes the branch for general inclusions (some additive component is a
nonsmooth node, possibly negated or times a smooth factor): off the switching surfaces the vector
field of the model is the original one.  (What is missing for C76: the other branch, see
`C76_filippov_partial`.) -/
theorem C76_general_partial {E : AutoEnv} {rows : List SX} {out : AutoOut} {s' : AutoState}
    (hr : reformulate E rows .init = .ok (out, s')) (hd : detectAdditive rows = true)
    (hoff : OffSurfaces I env out) {i : Nat} (hi : i < rows.length) {v : ℝ}
    (hv : FieldValue I env i v out) : v = rows[i].eval I env := by
  unfold reformulate at hr
  rw [if_pos hd] at hr
  cases hr
  obtain ⟨hs, e, he, rfl⟩ := hv
  simp only [OffSurfaces] at hoff
  have hstate := rebuildRows_state rows .init
  have hsign : ∀ e ∈ rows, SignsNonzero I env e := by
    intro e he a ha
    refine hoff a ?_
    rw [hstate]
    simp only [AutoState.extend, AutoState.init, List.nil_append, List.mem_map, List.mem_flatMap]
    exact ⟨_, ⟨e, he, ha⟩, rfl⟩
  have key : (rebuildRows rows .init).1.map (SX.eval I env) = rows.map (SX.eval I env) := by
    rw [hstate] at hs
    exact rebuildRows_eval rows .init (by simpa [AutoState.extend, AutoState.init] using hs) hsign
  have := congrArg (fun l => l[i]?) key
  simp only [List.getElem?_map, he, List.getElem?_eq_getElem hi, Option.map_some,
    Option.some.injEq] at this
  exact this

/-- ... and such values exist: at every point the created symbols can be given the step values. -/
theorem C76_general_exists {E : AutoEnv} {rows : List SX} {out : AutoOut} {s' : AutoState}
    (hr : reformulate E rows .init = .ok (out, s')) (hd : detectAdditive rows = true)
    (hu : ∀ e ∈ rows, UserExpr e) {i : Nat} (hi : i < rows.length) (env : Leaf → ℝ) :
    ∃ env', SameUser env env' ∧ ∃ v, FieldValue I env' i v out := by
  unfold reformulate at hr
  rw [if_pos hd] at hr
  cases hr
  have hu' : ∀ c ∈ (rows.flatMap outer).map switchOf, UserExpr c := by
    intro c hc n hn
    simp only [List.mem_map, List.mem_flatMap] at hc
    obtain ⟨t, ⟨e, he, ht⟩, rfl⟩ := hc
    exact hu e he n (outer_leaves ht _ hn)
  obtain ⟨env', h1, h2, -⟩ := stepValues_exist (I := I) env 0 _ hu'
  have hl : i < (rebuildRows rows .init).1.length := by rwa [rebuildRows_length]
  refine ⟨env', h1, _, ?_, _, List.getElem?_eq_getElem hl, rfl⟩
  rw [rebuildRows_state]
  simpa [AutoState.extend, AutoState.init] using h2

/-- C76, if `reformulate()` takes the branch for Filippov systems: proved if every additive
component has at most one outermost nonsmooth node and equal switching functions are one shared
node.  Both conditions are needed, see `C76_product_violated` and `C76_doubled_violated`. -/
theorem C76_filippov_partial {E : AutoEnv} {rows : List SX} {out : AutoOut} {s' : AutoState}
    (hr : reformulate E rows .init = .ok (out, s')) (hd : detectAdditive rows = false)
    (ho : SetOrder E) (h1 : OneEach rows) (hsd : NodesSound E rows) (hsh : NodesShared E rows)
    (hoff : OffSurfaces I env out) {i : Nat} (hi : i < rows.length) {v : ℝ} :
    FieldValue I env i v out ↔ v = rows[i].eval I env := by
  unfold reformulate at hr
  rw [if_neg (by simp [hd])] at hr
  simp only [bind_eq_ok] at hr
  obtain ⟨s'', h2, h3⟩ := hr
  cases h3
  obtain ⟨common, collated, hl⟩ := linear_run h2
  constructor
  · rintro ⟨-, -, js, -, h3, rfl⟩
    exact hl.value ho h1 hsd hsh hoff hi h3
  · rintro rfl
    obtain ⟨a1, a2, -⟩ := hl.length
    obtain ⟨-, -, hS, -⟩ := hl.keys ho h1 hsd hsh
    classical
    let js := (List.range s'.c.length).map fun s =>
      if 0 < (s'.c.getD s (.num 0)).eval I env then 0 else 1
    have hact : ∀ s < s'.c.length,
        Active (s'.S.getD s []) ((s'.c.getD s (.num 0)).eval I env) (js.getD s 0) := by
      intro s hs
      have e1 : s'.S.getD s [] = [1, -1] := by
        have hs' : s < s'.S.length := by omega
        rw [List.getD, List.getElem?_eq_getElem hs']
        exact hS _ (List.getElem_mem hs')
      have e2 : js.getD s 0 = if 0 < (s'.c.getD s (.num 0)).eval I env then 0 else 1 := by
        simp only [js, List.getD]
        rw [List.getElem?_map, List.getElem?_range hs]
        rfl
      have e3 : (s'.c.getD s (.num 0)).eval I env ≠ 0 := by
        rw [List.getD, List.getElem?_eq_getElem hs]
        exact hoff _ (List.getElem_mem hs)
      rw [e1, e2]
      rcases lt_or_gt_of_ne e3 with h | h
      · rw [if_neg (not_lt.2 h.le)]
        exact ⟨-1, rfl, by push_cast; linarith⟩
      · rw [if_pos h]
        exact ⟨1, rfl, by push_cast; linarith⟩
    exact ⟨a1, a2, js, by simp [js], hact, (hl.value ho h1 hsd hsh hoff hi hact).symm⟩

/-- C76 is violated by products of nonsmooth terms: `x0' = x0 + sign(x0) * sign(x1)` is accepted,
but the model only switches with `x0`, and at `x0 = 1`, `x1 = -1` has the value 2 instead of 0. -/
theorem C76_product_violated : ∃ rows : List SX, ∀ E : AutoEnv, SetOrder E →
    ∃ out s', reformulate E rows .init = .ok (out, s') ∧
    ∃ env : Leaf → ℝ, OffSurfaces I env out ∧ (∀ e ∈ rows, SignsNonzero I env e) ∧
      ∃ h : 0 < rows.length, FieldValue I env 0 2 out ∧ rows[0].eval I env = 0 := by
  refine ⟨[.bin .add (.leaf (.x 0)) (.bin .mul (.un .sign (.leaf (.x 0))) (.un .sign (.leaf (.x 1))))],
    fun E hE => ?_⟩
  have ho : E.order [SX.leaf (.x 0)] = [SX.leaf (.x 0)] := List.perm_singleton.1 (hE _)
  refine ⟨.filippov [[(.bin .add (.bin .add (.num 0) (.bin .mul (.num 1) (.num 1))) (.leaf (.x 0)),
      .bin .add (.bin .add (.num 0) (.bin .mul (.num 1) (.num (-1)))) (.leaf (.x 0)))]]
      [.leaf (.x 0)] [[1, -1]],
    ⟨[.leaf (.x 0)], [[1, -1]], [[(.bin .add (.bin .add (.num 0) (.bin .mul (.num 1) (.num 1)))
      (.leaf (.x 0)), .bin .add (.bin .add (.num 0) (.bin .mul (.num 1) (.num (-1))))
      (.leaf (.x 0)))]], []⟩, ?_,
    fun l => match l with | .x 0 => 1 | .x 1 => -1 | _ => 0, ?_, ?_, by simp, ?_, ?_⟩
  · have hcol : collate (E.nodeId 0) [.bin .mul (.un .sign (.leaf (.x 0))) (.un .sign (.leaf (.x 1)))]
        = .ok [⟨.bin .mul (.num 1) (.num 1), .bin .mul (.num 1) (.num (-1)), .leaf (.x 0), [1, -1],
            E.nodeId 0 0⟩] := rfl
    have hlin : reformulateLinear E [.bin .add (.leaf (.x 0)) (.bin .mul (.un .sign (.leaf (.x 0)))
        (.un .sign (.leaf (.x 1))))] .init = .ok ⟨[.leaf (.x 0)], [[1, -1]],
          [[(.bin .add (.bin .add (.num 0) (.bin .mul (.num 1) (.num 1)))
      (.leaf (.x 0)), .bin .add (.bin .add (.num 0) (.bin .mul (.num 1) (.num (-1))))
      (.leaf (.x 0)))]], []⟩ := by
      simp [reformulateLinear, components, checkSmooth, sumList, hcol, allC, ho, csMap, insertKey,
        addCommon, fEntry, AutoState.init, ok_bind]
      rfl
    simp [reformulate, detectAdditive, components, checkAdditive, SX.isSwitchOp, checkSmooth, hlin,
      ok_bind]
  · intro e he
    simp only [List.mem_singleton] at he
    subst he
    simp [SX.eval]
  · intro e he a ha
    simp only [List.mem_singleton] at he
    subst he
    simp [outer] at ha
    rcases ha with rfl | rfl <;> simp [SX.eval]
  · refine ⟨rfl, rfl, [0], rfl, ?_, ?_⟩
    · intro s hs
      simp at hs
      subst hs
      exact ⟨1, rfl, by simp [SX.eval]⟩
    · simp [Spec.entry, SX.eval, BinOp.eval, List.range_succ]
      norm_num
  · simp [SX.eval, BinOp.eval, UnOp.eval]
    rw [Real.sign_of_neg (by norm_num)]
    norm_num

/-- The right-hand side `x0 + (max(x0, x1) + 1) * x0 + (max(x0, x1) + 1) * x1`. -/
private def twice : SX :=
  .bin .add (.bin .add (.leaf (.x 0))
    (.bin .mul (.bin .add (.bin .fmax (.leaf (.x 0)) (.leaf (.x 1))) (.num 1)) (.leaf (.x 0))))
    (.bin .mul (.bin .add (.bin .fmax (.leaf (.x 0)) (.leaf (.x 1))) (.num 1)) (.leaf (.x 1)))

private def sw : SX := .bin .sub (.leaf (.x 0)) (.leaf (.x 1))

private def tw (y : Nat) (z : Nat) : SX :=
  .bin .mul (.bin .add (.leaf (.x z)) (.num 1)) (.leaf (.x y))

private def twF (z : Nat) : SX := .bin .add (.bin .add (.num 0) (tw 0 z)) (tw 1 z)

/-- C76 is violated when two nonsmooth components have equal switching functions that are
different nodes (as always for `max`, whose difference is built anew each time): each of the two
dictionary entries gets the components of both, so that they count twice.
`x0' = x0 + (max(x0,x1) + 1) x0 + (max(x0,x1) + 1) x1` at `x0 = 1`, `x1 = 0` gives 5 instead of 3. -/
theorem C76_doubled_violated : ∃ rows : List SX, OneEach rows ∧
    ∀ E : AutoEnv, SetOrder E → E.nodeId 0 0 ≠ E.nodeId 0 1 →
    ∃ out s', reformulate E rows .init = .ok (out, s') ∧
    ∃ env : Leaf → ℝ, OffSurfaces I env out ∧ 
      ∃ h : 0 < rows.length, FieldValue I env 0 5 out ∧ rows[0].eval I env = 3 := by
  refine ⟨[twice], ?_, fun E hE hid => ?_⟩
  · intro e he t ht
    simp only [List.mem_singleton] at he
    subst he
    simp only [twice, components, List.cons_append, List.nil_append, List.mem_cons,
      List.not_mem_nil, or_false] at ht
    rcases ht with rfl | rfl | rfl <;> simp [outer]
  have ho : E.order [sw] = [sw] := List.perm_singleton.1 (hE _)
  let s' : AutoState := ⟨[sw, sw], [[1, -1], [1, -1]],
    [[(.bin .add (twF 0) (.leaf (.x 0)), .bin .add (twF 1) (.leaf (.x 0)))], [(twF 0, twF 1)]], []⟩
  refine ⟨.filippov s'.F s'.c s'.S, s', ?_, fun l => match l with | .x 0 => 1 | _ => 0, ?_, by simp,
    ?_, ?_⟩
  · have hcol : collate (E.nodeId 0) (nonsmoothOf twice)
        = .ok [⟨tw 0 0, tw 0 1, sw, [1, -1], E.nodeId 0 0⟩,
               ⟨tw 1 0, tw 1 1, sw, [1, -1], E.nodeId 0 1⟩] := rfl
    have hsm : ([twice].map fun e => (components e).filter checkSmooth).mapM sumList
        = .ok [.leaf (.x 0)] := rfl
    have hns : ([twice].map fun e => (components e).filter fun t => !checkSmooth t)
        = [nonsmoothOf twice] := rfl
    have hlin : reformulateLinear E [twice] .init = .ok s' := by
      unfold reformulateLinear
      dsimp only
      rw [hsm, hns]
      simp [hcol, allC, ho, csMap, insertKey, hid,
        addCommon, fEntry, AutoState.init, ok_bind, s', twF]
    have hdet : detectAdditive [twice] = false := rfl
    simp [reformulate, hdet, hlin, ok_bind]
  · intro e he
    simp [s'] at he
    subst he
    simp [sw, SX.eval, BinOp.eval]
  · refine ⟨rfl, rfl, [0, 0], rfl, ?_, ?_⟩
    · intro s hs
      have : s = 0 ∨ s = 1 := by
        have : s < 2 := hs
        omega
      rcases this with rfl | rfl <;> exact ⟨1, rfl, by simp [s', sw, SX.eval, BinOp.eval]⟩
    · simp [Spec.entry, SX.eval, BinOp.eval, List.range_succ, s', twF, tw]
      norm_num
  · simp [twice, SX.eval, BinOp.eval]
    norm_num

/-! C77 -/

variable {o : PreOpts} {nX nU : Nat} {x0 : List ℝ}

private theorem general_iff {f c alpha : List SX} (hl : alpha.length = c.length)
    (hc : (AutoOut.general f c alpha).closed = true) :
    (∃ m, (AutoOut.general f c alpha).preprocess I nX nU x0 o = .ok m) ↔
      o.pss = .step ∧ o.timeFreezing = false ∧ c.length = 1 := by
  unfold AutoOut.preprocess
  rw [if_pos hc, C70_preprocess_iff rfl (by simp [AutoOut.toModel])]
  have hlen : ∀ l : List SX, ((l.map (SX.toUVec I)).map UVec.len).sum = l.length := by
    intro l
    induction l with
    | nil => rfl
    | cons a l ih =>
        simp only [List.map_cons, List.sum_cons, ih, SX.toUVec, List.length_cons]
        omega
  constructor
  · rintro ⟨h1, ⟨Fs, cs, Ss, h⟩ | ⟨Fs, gs, h⟩ | ⟨f', cs, al, h⟩⟩
    · have := h.F; simp [AutoOut.toModel] at this
    · have := h.F; simp [AutoOut.toModel] at this
    · refine ⟨h.step, ?_, ?_⟩
      · rcases h1.time with h | h
        · simp [AutoOut.toModel] at h
        · exact h
      · have e1 : cs = c.map (SX.toUVec I) := (Option.some.inj h.c).symm
        have e2 : al = [alpha.length] := (Option.some.inj h.alpha).symm
        have e3 : f'.pieces = 1 := by
          have := Option.some.inj h.fx
          rw [← this]
        have := h.first rfl
        rw [e1, e2, e3, ← List.map_take, hlen] at this
        have h4 := h.lenC
        rw [e1, e3] at h4
        simp at this h4
        omega
  · rintro ⟨h1, h2, h3⟩
    refine ⟨⟨?_, ?_, ?_, rfl, ?_, .inr h2⟩, .inr (.inr ⟨_, _, _, ⟨rfl, rfl, rfl, rfl, h1, ?_, ?_, ?_, ?_, ?_⟩⟩)⟩
    · intro l h; cases h
    · intro l h; cases h
    · intro l h; cases h
    · intro V h; cases h
    · rw [hlen]; simp [hl]
    · simp
    · simp [h3]
    · intro _
      rw [← List.map_take, hlen]
      simp [hl, h3]
    · intro h; cases h

private theorem noP_iff (e : SX) : e.noP = true ↔ ∀ k, Leaf.p k ∉ e.leaves := by
  simp only [SX.noP, List.all_eq_true]
  constructor
  · intro h k hk
    simpa using h _ hk
  · intro h l hl
    cases l with
    | p k => exact absurd hl (h k)
    | x k | u k | alpha k => rfl

private theorem onlyX_iff (e : SX) : e.onlyX = true ↔ ∀ l ∈ e.leaves, ∃ k, l = .x k := by
  simp only [SX.onlyX, List.all_eq_true]
  constructor
  · intro h l hl
    have := h l hl
    cases l with
    | x k => exact ⟨k, rfl⟩
    | p k | u k | alpha k => cases this
  · intro h l hl
    obtain ⟨k, rfl⟩ := h l hl
    rfl

/-- C77 for general inclusions, exactly: for a right-hand side without parameters whose switching
functions depend on states only, the returned model passes preprocessing iff the step
representation is used and there is exactly one switching function (see `C77_several_violated`).
(`timeFreezing` needs a `t_var`, which auto models do not have.) -/
theorem C77_general_partial {E : AutoEnv} {rows : List SX} {out : AutoOut} {s' : AutoState}
    (hr : reformulate E rows .init = .ok (out, s')) (hd : detectAdditive rows = true)
    (hp : NoParams rows) (hx : StateSwitched rows) :
    (∃ m, out.preprocess I nX nU x0 o = .ok m) ↔
      o.pss = .step ∧ o.timeFreezing = false ∧ (rows.flatMap outer).length = 1 := by
  unfold reformulate at hr
  rw [if_pos hd] at hr
  cases hr
  have hs := rebuildRows_state rows .init
  have hc : (rebuildRows rows .init).2.c = (rows.flatMap outer).map switchOf := by
    rw [hs]; simp [AutoState.extend, AutoState.init]
  have ha : (rebuildRows rows .init).2.alpha.length = (rows.flatMap outer).length := by
    rw [hs]; simp [AutoState.extend, AutoState.init, alphaSyms]
  rw [general_iff (by rw [ha, hc, List.length_map]) ?_, hc, List.length_map]
  simp only [AutoOut.closed, Bool.and_eq_true, List.all_eq_true, noP_iff, onlyX_iff]
  constructor
  · intro r hr k hk
    rcases rebuildRows_leaves rows .init r hr _ hk with ⟨e, he, h⟩ | ⟨n, h⟩
    · exact hp e he k h
    · cases h
  · intro c hc'
    rw [hc] at hc'
    simp only [List.mem_map, List.mem_flatMap] at hc'
    obtain ⟨t, ⟨e, he, ht⟩, rfl⟩ := hc'
    exact hx e he t ht

/-- C77 for Filippov systems: with any number of switching functions, in both representations.
(What is missing for C77: general inclusions with several switching functions.) -/
theorem C77_filippov_partial {E : AutoEnv} {rows : List SX} {out : AutoOut} {s' : AutoState}
    (hr : reformulate E rows .init = .ok (out, s')) (hd : detectAdditive rows = false)
    (ho : SetOrder E) (hp : NoParams rows) (hx : StateSwitched rows) :
    (∃ m, out.preprocess I nX nU x0 o = .ok m) ↔ o.timeFreezing = false := by
  unfold reformulate at hr
  rw [if_neg (by simp [hd])] at hr
  simp only [bind_eq_ok] at hr
  obtain ⟨s'', h2, h3⟩ := hr
  cases h3
  obtain ⟨common, collated, hl⟩ := linear_run h2
  obtain ⟨a1, a2, -⟩ := hl.length
  obtain ⟨f1, f2, f3⟩ := hl.facts ho
  have hcl : (AutoOut.filippov s'.F s'.c s'.S).closed = true := by
    simp only [AutoOut.closed, Bool.and_eq_true, List.all_eq_true, noP_iff, onlyX_iff]
    refine ⟨fun M hM e he => ⟨fun k hk => ?_, fun k hk => ?_⟩, fun c hc => ?_⟩
    · obtain ⟨r, hr, h⟩ := f3 M hM e he _ (.inl hk)
      exact hp r hr k h
    · obtain ⟨r, hr, h⟩ := f3 M hM e he _ (.inr hk)
      exact hp r hr k h
    · obtain ⟨e, he, t, ht, rfl⟩ := f2 c hc
      exact hx e he t ht
  unfold AutoOut.preprocess
  rw [if_pos hcl, C70_preprocess_iff rfl (by simp [AutoOut.toModel])]
  constructor
  · rintro ⟨h1, -⟩
    rcases h1.time with h | h
    · simp [AutoOut.toModel] at h
    · exact h
  · intro h2
    have hF : ∀ s < s'.F.length, (((AutoOut.filippov s'.F s'.c s'.S).toModel I nX nU x0).Fmat s).nCols = 2 := by
      intro s hs
      simp [UserModel.Fmat, AutoOut.toModel, List.getD, List.getElem?_eq_getElem hs]
    have hS : ∀ s < s'.F.length,
        (((AutoOut.filippov s'.F s'.c s'.S).toModel I nX nU x0).Smat s).rows = 2 ∧
        (((AutoOut.filippov s'.F s'.c s'.S).toModel I nX nU x0).Smat s).cols = 1 := by
      intro s hs
      have hs' : s < s'.S.length := by omega
      have := f1 _ (List.getElem_mem hs')
      simp [UserModel.Smat, AutoOut.toModel, List.getD, List.getElem?_eq_getElem hs', this]
    have hc : ∀ s < s'.F.length,
        (((AutoOut.filippov s'.F s'.c s'.S).toModel I nX nU x0).cVec s).len = 1 := by
      intro s hs
      have hs' : s < s'.c.length := by omega
      simp [UserModel.cVec, AutoOut.toModel, List.getD, List.getElem?_eq_getElem hs', SX.toUVec]
    refine ⟨⟨?_, ?_, ?_, rfl, ?_, .inr h2⟩, .inl ⟨_, _, _, ⟨rfl, rfl, rfl, rfl, ?_, ?_, ?_, ?_, ?_, ?_, ?_⟩⟩⟩
    · intro l h; cases h
    · intro l h; cases h
    · intro l h; cases h
    · intro V h; cases h
    · intro f hf
      rw [List.mem_map] at hf
      obtain ⟨M, -, rfl⟩ := hf
      simp
    · simp; omega
    · simp; omega
    · intro s hs
      simp only [List.length_map] at hs
      rw [hF s hs, (hS s hs).1]
    · intro _ s hs
      simp only [List.length_map] at hs
      rw [hc s hs, (hS s hs).2]
    · intro _ s hs i _ k hk _
      simp only [List.length_map] at hs
      rw [(hS s hs).2] at hk
      rw [hc s hs]
      exact hk
    · intro _ s hs
      simp only [List.length_map] at hs
      rw [(hS s hs).1, (hS 0 (by omega)).1]

/-- C77 is violated by general inclusions with two switching functions: `x0' = sign(x0)`,
`x1' = sign(x1)` is reformulated, but the model never passes preprocessing. -/
theorem C77_several_violated : ∃ rows : List SX, NoParams rows ∧ StateSwitched rows ∧
    ∀ E : AutoEnv, ∃ out s', reformulate E rows .init = .ok (out, s') ∧
      ∀ (o : PreOpts) (x0 : List ℝ), ¬ ∃ m, out.preprocess I 2 0 x0 o = .ok m := by
  have hp : NoParams [.un .sign (.leaf (.x 0)), .un .sign (.leaf (.x 1))] := by
    intro e he k
    simp only [List.mem_cons, List.not_mem_nil, or_false] at he
    rcases he with rfl | rfl <;> simp [SX.leaves]
  have hx : StateSwitched [.un .sign (.leaf (.x 0)), .un .sign (.leaf (.x 1))] := by
    intro e he t ht
    simp only [List.mem_cons, List.not_mem_nil, or_false] at he
    rcases he with rfl | rfl <;> simp [outer] at ht <;> subst ht <;> simp [switchOf, SX.leaves]
  refine ⟨_, hp, hx, fun E => ⟨_, _, rfl, fun o x0 => ?_⟩⟩
  rw [C77_general_partial (E := E) rfl rfl hp hx]
  simp [outer]

/-- C77 is violated by right-hand sides with parameters, even with one switching function:
`x0' = sign(x0) + p0`. -/
theorem C77_parameter_violated : ∃ rows : List SX, (rows.flatMap outer).length = 1 ∧
    ∀ E : AutoEnv, ∃ out s', reformulate E rows .init = .ok (out, s') ∧
      ∀ (o : PreOpts) (x0 : List ℝ), out.preprocess I 1 0 x0 o = .error .casadi :=
  ⟨[.bin .add (.un .sign (.leaf (.x 0))) (.leaf (.p 0))], rfl, fun _ => ⟨_, _, rfl, fun _ _ => rfl⟩⟩

/-- ... and by switching functions of the control: `x0' = sign(x0 - u0)`. -/
theorem C77_control_violated : ∃ rows : List SX, (rows.flatMap outer).length = 1 ∧ NoParams rows ∧
    ∀ E : AutoEnv, ∃ out s', reformulate E rows .init = .ok (out, s') ∧
      ∀ (o : PreOpts) (x0 : List ℝ), out.preprocess I 1 1 x0 o = .error .casadi := by
  refine ⟨[.un .sign (.bin .sub (.leaf (.x 0)) (.leaf (.u 0)))], rfl, ?_,
    fun _ => ⟨_, _, rfl, fun _ _ => rfl⟩⟩
  intro e he k
  simp only [List.mem_cons, List.not_mem_nil, or_false] at he
  subst he
  simp [SX.leaves]

/-- The hypotheses of C76 and C77 for general inclusions: `x0' = x1 - sign(x0)`, `x1' = x0`. -/
example : ∃ rows : List SX, detectAdditive rows = true ∧ (∀ e ∈ rows, UserExpr e) ∧
    NoParams rows ∧ StateSwitched rows ∧ (rows.flatMap outer).length = 1 ∧
    ∀ E : AutoEnv, ∃ out s', reformulate E rows .init = .ok (out, s') ∧
      ∃ env : Leaf → ℝ, OffSurfaces I env out ∧ ∃ v, FieldValue I env 0 v out := by
  refine ⟨[.bin .sub (.leaf (.x 1)) (.un .sign (.leaf (.x 0))), .leaf (.x 0)], rfl, ?_, ?_, ?_, rfl,
    fun E => ⟨_, _, rfl, fun l => match l with | .x _ => 2 | .alpha _ => 1 | _ => 0, ?_,
      _, ?_, _, rfl, rfl⟩⟩
  · intro e he n hn
    simp only [List.mem_cons, List.not_mem_nil, or_false] at he
    rcases he with rfl | rfl <;> simp [SX.leaves] at hn
  · intro e he k
    simp only [List.mem_cons, List.not_mem_nil, or_false] at he
    rcases he with rfl | rfl <;> simp [SX.leaves]
  · intro e he t ht
    simp only [List.mem_cons, List.not_mem_nil, or_false] at he
    rcases he with rfl | rfl <;> simp [outer] at ht
    subst ht
    simp [switchOf, SX.leaves]
  · rw [rebuildRows_state]
    simp [OffSurfaces, AutoState.extend, AutoState.init, outer, switchOf, SX.eval]
  · rw [rebuildRows_state]
    simp [AutoState.extend, AutoState.init, outer, alphaSyms, List.range_succ, StepValues, StepValue,
      SX.eval, switchOf]

private def exRow (t : SX) (i j : Nat) : SX :=
  .bin .add (.leaf (.x i)) (.bin .mul (.bin .add t (.num 1)) (.leaf (.x j)))

private def exRows : List SX :=
  [exRow (.un .sign (.leaf (.x 0))) 0 1, exRow (.bin .fmax (.leaf (.x 0)) (.leaf (.x 1))) 1 0]

private def exEnv : AutoEnv := ⟨fun i _ => i, id⟩

private theorem ex_switchAt {i j : Nat} {c : SX} (h : switchAt exRows i j = some c) :
    (i = 0 ∧ c = .leaf (.x 0)) ∨ (i = 1 ∧ c = .bin .sub (.leaf (.x 0)) (.leaf (.x 1))) := by
  match i with
  | 0 =>
      left
      match j with
      | 0 => exact ⟨rfl, (Option.some.inj h).symm⟩
      | j + 1 => cases h
  | 1 =>
      right
      match j with
      | 0 => exact ⟨rfl, (Option.some.inj h).symm⟩
      | j + 1 => cases h
  | i + 2 => cases h

/-- The hypotheses of C76 and C77 for Filippov systems: `x0' = x0 + (sign(x0) + 1) x1`,
`x1' = x1 + (max(x0, x1) + 1) x0`, with two switching functions. -/
example : ∃ (E : AutoEnv) (rows : List SX), detectAdditive rows = false ∧ SetOrder E ∧
    OneEach rows ∧ NodesSound E rows ∧ NodesShared E rows ∧ NoParams rows ∧ StateSwitched rows ∧
    ∃ F c S s', reformulate E rows .init = .ok (.filippov F c S, s') ∧ c.length = 2 ∧
      ∃ env : Leaf → ℝ, OffSurfaces I env (.filippov F c S) := by
  have mem : ∀ {e}, e ∈ exRows → e = exRow (.un .sign (.leaf (.x 0))) 0 1 ∨
      e = exRow (.bin .fmax (.leaf (.x 0)) (.leaf (.x 1))) 1 0 := by
    intro e he
    simpa [exRows] using he
  refine ⟨exEnv, exRows, rfl, fun l => List.Perm.refl l, ?_, ?_, ?_, ?_, ?_,
    _, _, _, _, rfl, rfl, fun l => match l with | .x 0 => 2 | .x _ => 1 | _ => 0, ?_⟩
  · intro e he t ht
    rcases mem he with rfl | rfl <;>
    · simp only [exRow, components, List.cons_append, List.nil_append, List.mem_cons,
        List.not_mem_nil, or_false] at ht
      rcases ht with rfl | rfl <;> simp [outer]
  · intro i j i' j' c c' h1 h2 h3
    have h3 : i = i' := h3
    rcases ex_switchAt h1 with ⟨rfl, rfl⟩ | ⟨rfl, rfl⟩ <;>
      rcases ex_switchAt h2 with ⟨h, rfl⟩ | ⟨h, rfl⟩ <;> first | rfl | omega
  · intro i j i' j' c h1 h2
    show i = i'
    rcases ex_switchAt h1 with ⟨rfl, rfl⟩ | ⟨rfl, rfl⟩ <;>
      rcases ex_switchAt h2 with ⟨h, h'⟩ | ⟨h, h'⟩ <;> first | exact h.symm | cases h'
  · intro e he k
    rcases mem he with rfl | rfl <;> simp [exRow, SX.leaves]
  · intro e he t ht
    rcases mem he with rfl | rfl <;> simp [exRow, outer] at ht <;> subst ht <;>
      simp [switchOf, SX.leaves]
  · intro e he
    have : e = .leaf (.x 0) ∨ e = .bin .sub (.leaf (.x 0)) (.leaf (.x 1)) := by
      have : e ∈ [SX.leaf (.x 0), .bin .sub (.leaf (.x 0)) (.leaf (.x 1))] := he
      simpa using this
    rcases this with rfl | rfl
    · simp [SX.eval]
    · simp [SX.eval, BinOp.eval]
      norm_num

/-! C82 -/

/-- C82 for general inclusions, whatever the object was used for before: the vector field of the
model is the original one off the switching surfaces.  (What is missing: the switching functions
accumulate, see the two theorems below.) -/
theorem C82_general_partial {E : AutoEnv} {rows : List SX} {out : AutoOut} {s s' : AutoState}
    (hr : reformulate E rows s = .ok (out, s')) (hd : detectAdditive rows = true)
    (hn : s.alpha.length = s.c.length)
    (hoff : OffSurfaces I env out) {i : Nat} (hi : i < rows.length) {v : ℝ}
    (hv : FieldValue I env i v out) : v = rows[i].eval I env := by
  unfold reformulate at hr
  rw [if_pos hd] at hr
  cases hr
  obtain ⟨hs, e, he, rfl⟩ := hv
  simp only [OffSurfaces] at hoff
  have hstate := rebuildRows_state rows s
  have hsign : ∀ e ∈ rows, SignsNonzero I env e := by
    intro e he a ha
    refine hoff a ?_
    rw [hstate]
    simp only [AutoState.extend, List.mem_append, List.mem_map, List.mem_flatMap]
    exact .inr ⟨_, ⟨e, he, ha⟩, rfl⟩
  have hs' : StepValues I env ((rows.flatMap outer).map switchOf)
      (alphaSyms s.alpha.length (rows.flatMap outer).length) := by
    rw [hstate] at hs
    have h := List.forall₂_drop_append _ _ _ hs
    simp only [AutoState.extend] at h
    rw [hn, List.drop_left] at h
    rw [hn]
    exact h
  have key := rebuildRows_eval rows s hs' hsign
  have := congrArg (fun l => l[i]?) key
  simp only [List.getElem?_map, he, List.getElem?_eq_getElem hi, Option.map_some,
    Option.some.injEq] at this
  exact this

private def one : List SX := [.un .sign (.leaf (.x 0))]

private theorem lens (l : List SX) : ((l.map (SX.toUVec I)).map UVec.len).sum = l.length := by
  induction l with
  | nil => rfl
  | cons a l ih =>
      simp only [List.map_cons, List.sum_cons, ih, SX.toUVec, List.length_cons]
      omega

private theorem one_closed (s : AutoState) (c : List SX) (hc : ∀ e ∈ c, e = .leaf (.x 0))
    (alpha : List SX) : (AutoOut.general (rebuildRows one s).1 c alpha).closed = true := by
  simp only [AutoOut.closed, Bool.and_eq_true, List.all_eq_true, noP_iff, onlyX_iff]
  constructor
  · intro r hr k hk
    rcases rebuildRows_leaves one s r hr _ hk with ⟨e, he, h⟩ | ⟨n, h⟩
    · simp only [one, List.mem_singleton] at he
      subst he
      simp [SX.leaves] at h
    · cases h
  · intro e he l hl
    rw [hc e he, SX.leaves, List.mem_singleton] at hl
    exact ⟨0, hl⟩

private theorem one_run (E : AutoEnv) (s : AutoState) :
    reformulate E one s = .ok (.general (rebuildRows one s).1 (s.c ++ [.leaf (.x 0)])
      (s.alpha ++ alphaSyms s.alpha.length 1), (rebuildRows one s).2) ∧
    (rebuildRows one s).2.c = s.c ++ [.leaf (.x 0)] ∧
    (rebuildRows one s).2.alpha = s.alpha ++ alphaSyms s.alpha.length 1 := by
  have h := rebuildRows_state one s
  have hc : (rebuildRows one s).2.c = s.c ++ [.leaf (.x 0)] := by rw [h]; rfl
  have ha : (rebuildRows one s).2.alpha = s.alpha ++ alphaSyms s.alpha.length 1 := by rw [h]; rfl
  refine ⟨?_, hc, ha⟩
  unfold reformulate
  rw [if_pos (show detectAdditive one = true from rfl)]
  dsimp only
  rw [hc, ha]

/-- C82 is violated: for `x0' = sign(x0)` the model of the first call is usable, that of the second
call on the same object has the switching function twice and never passes preprocessing. -/
theorem C82_second_violated : ∃ rows : List SX, ∀ E : AutoEnv,
    ∃ out₁ s₁ out₂ s₂, reformulate E rows .init = .ok (out₁, s₁) ∧
      reformulate E rows s₁ = .ok (out₂, s₂) ∧
      ∀ x0 : List ℝ,
        (∀ o : PreOpts, o.pss = .step → o.timeFreezing = false →
          ∃ m, out₁.preprocess I 1 0 x0 o = .ok m) ∧
        ∀ o : PreOpts, ¬ ∃ m, out₂.preprocess I 1 0 x0 o = .ok m := by
  refine ⟨one, fun E => ?_⟩
  obtain ⟨h1, c1, a1⟩ := one_run E .init
  obtain ⟨h2, -, -⟩ := one_run E (rebuildRows one .init).2
  refine ⟨_, _, _, _, h1, h2, fun x0 => ⟨fun o h1 h2 => ?_, fun o => ?_⟩⟩
  · rw [general_iff (by simp [AutoState.init, alphaSyms_length])
      (one_closed _ _ (by simp [AutoState.init]) _)]
    exact ⟨h1, h2, by simp [AutoState.init]⟩
  · rw [general_iff]
    · rintro ⟨-, -, h⟩
      rw [c1] at h
      cases h
    · rw [c1, a1]; simp [AutoState.init, alphaSyms_length]
    · exact one_closed _ _ (by rw [c1]; simp [AutoState.init]) _

/-- ... and the second call breaks the model of the first call, which holds the same list of
switching functions. -/
theorem C82_first_violated : ∃ rows : List SX, ∀ E : AutoEnv,
    ∃ out₁ s₁ out₂ s₂, reformulate E rows .init = .ok (out₁, s₁) ∧
      reformulate E rows s₁ = .ok (out₂, s₂) ∧
      ∀ x0 : List ℝ,
        (∀ o : PreOpts, o.pss = .step → o.timeFreezing = false →
          ∃ m, out₁.preprocess I 1 0 x0 o = .ok m) ∧
        ∀ o : PreOpts, ¬ ∃ m, (out₁.later s₂).preprocess I 1 0 x0 o = .ok m := by
  refine ⟨one, fun E => ?_⟩
  obtain ⟨h1, c1, a1⟩ := one_run E .init
  obtain ⟨h2, c2, -⟩ := one_run E (rebuildRows one .init).2
  refine ⟨_, _, _, _, h1, h2, fun x0 => ⟨fun o h1 h2 => ?_, fun o => ?_⟩⟩
  · rw [general_iff (by simp [AutoState.init, alphaSyms_length])
      (one_closed _ _ (by simp [AutoState.init]) _)]
    exact ⟨h1, h2, by simp [AutoState.init]⟩
  · simp only [AutoOut.later]
    rw [c2, c1]
    unfold AutoOut.preprocess
    rw [if_pos (one_closed _ _ (by simp [AutoState.init]) _),
      C70_preprocess_iff rfl (by simp [AutoOut.toModel])]
    rintro ⟨-, ⟨Fs, cs, Ss, h⟩ | ⟨Fs, gs, h⟩ | ⟨f', cs, al, h⟩⟩
    · have := h.F; simp [AutoOut.toModel] at this
    · have := h.F; simp [AutoOut.toModel] at this
    · have e1 := Option.some.inj h.c
      have e2 := Option.some.inj h.alpha
      have := h.total
      rw [← e1, ← e2, lens] at this
      cases this

/-- ... and for Filippov systems the second call doubles the vector field:
`x0' = x0 + (sign(x0) + 1) x0` has at `x0 = 1` the value 3, but in the second model 6 (and then also
in the first one). -/
theorem C82_filippov_violated : ∃ rows : List SX, ∀ E : AutoEnv, SetOrder E →
    ∃ out₁ s₁ out₂ s₂, reformulate E rows .init = .ok (out₁, s₁) ∧
      reformulate E rows s₁ = .ok (out₂, s₂) ∧ out₁.later s₂ = out₂ ∧
      ∃ env : Leaf → ℝ, OffSurfaces I env out₂ ∧ ∃ h : 0 < rows.length,
        rows[0].eval I env = 3 ∧ FieldValue I env 0 3 out₁ ∧ FieldValue I env 0 6 out₂ := by
  let x : SX := .leaf (.x 0)
  let f (k : ℚ) : SX := .bin .add (.num 0) (.bin .mul (.bin .add (.num k) (.num 1)) x)
  let s₁ : AutoState := ⟨[x], [[1, -1]], [[(.bin .add (f 1) x, .bin .add (f (-1)) x)]], []⟩
  let s₂ : AutoState := ⟨[x, x], [[1, -1], [1, -1]],
    [[(.bin .add (.bin .add (f 1) x) x, .bin .add (.bin .add (f (-1)) x) x)], [(f 1, f (-1))]], []⟩
  refine ⟨[exRow (.un .sign x) 0 0], fun E hE => ?_⟩
  have ho : E.order [x] = [x] := List.perm_singleton.1 (hE _)
  have hdet : detectAdditive [exRow (.un .sign x) 0 0] = false := rfl
  have hcol : collate (E.nodeId 0) (nonsmoothOf (exRow (.un .sign x) 0 0))
      = .ok [⟨.bin .mul (.bin .add (.num 1) (.num 1)) x, .bin .mul (.bin .add (.num (-1)) (.num 1)) x,
          x, [1, -1], E.nodeId 0 0⟩] := rfl
  have hsm : ([exRow (.un .sign x) 0 0].map fun e => (components e).filter checkSmooth).mapM sumList
      = .ok [x] := rfl
  have hns : ([exRow (.un .sign x) 0 0].map fun e => (components e).filter fun t => !checkSmooth t)
      = [nonsmoothOf (exRow (.un .sign x) 0 0)] := rfl
  have h1 : reformulateLinear E [exRow (.un .sign x) 0 0] .init = .ok s₁ := by
    unfold reformulateLinear
    dsimp only
    rw [hsm, hns]
    simp [hcol, allC, ho, csMap, insertKey, addCommon, fEntry, AutoState.init, ok_bind, s₁, f]
  have h2 : reformulateLinear E [exRow (.un .sign x) 0 0] s₁ = .ok s₂ := by
    unfold reformulateLinear
    dsimp only
    rw [hsm, hns]
    simp [hcol, allC, ho, csMap, insertKey, addCommon, fEntry, ok_bind, s₁, s₂, f]
  refine ⟨.filippov s₁.F s₁.c s₁.S, s₁, .filippov s₂.F s₂.c s₂.S, s₂, ?_, ?_, rfl,
    fun l => match l with | .x _ => 1 | _ => 0, ?_, by simp, ?_, ?_, ?_⟩
  · simp [reformulate, hdet, h1, ok_bind]
  · simp [reformulate, hdet, h2, ok_bind]
  · intro e he
    simp [s₂] at he
    subst he
    simp [x, SX.eval]
  · simp [exRow, SX.eval, BinOp.eval, UnOp.eval, x]
    norm_num
  · refine ⟨rfl, rfl, [0], rfl, ?_, ?_⟩
    · intro s hs
      have : s = 0 := by
        have : s < 1 := hs
        omega
      subst this
      exact ⟨1, rfl, by simp [s₁, x, SX.eval]⟩
    · simp [Spec.entry, SX.eval, BinOp.eval, List.range_succ, s₁, f, x]
      norm_num
  · refine ⟨rfl, rfl, [0, 0], rfl, ?_, ?_⟩
    · intro s hs
      have : s = 0 ∨ s = 1 := by
        have : s < 2 := hs
        omega
      rcases this with rfl | rfl <;> exact ⟨1, rfl, by simp [s₂, x, SX.eval]⟩
    · simp [Spec.entry, SX.eval, BinOp.eval, List.range_succ, s₂, f, x]
      norm_num

end Nosnoc
