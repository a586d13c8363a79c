import Verif.Proofs.SetGuess
import Verif.Witness.TwoStewart
import Verif.Props.Solve
/-
C55: `set` for state, control, global and multiplier guesses.
-/
namespace Nosnoc

section
variable {colloc : IrkScheme → Nat → List ℝ} {o : Opts} {um : UserModel} {uo : Option UserOcp}
  {po : PreOpts} {m : PreModel} {oc : PreOcp} {P : Problem} {orc : Oracle} {S : Solver}

/-- What the proofs below need to know about a reachable object. -/
structure SetData (po : PreOpts) (d : Dims) (S : Solver) (g : Sym → ℝ) : Prop where
  nodup : S.P.form.w.Nodup
  guess : S.P.form.w0 = S.P.form.w.map g
  spec : IndexSpec po d S.P
  var : ∀ t ∈ S.P.form.w, IsVar po d t ∨ ((∃ k e i, t = .boolFe k e i) ∨ ∃ i, t = .boolGlob i)

theorem Setup.setData (h : Setup colloc o um uo po m oc P) (hS : Reachable colloc o um uo orc S)
    (hr : Ready um S) : ∃ g, SetData po m.dims S g := by
  have hi := hS.inv h
  have hd := (C01_index_lists_partition h).2
  obtain ⟨g, hg⟩ := exists_map hd (v := S.P.form.w0) (by rw [hr.guess, hi.w])
  refine ⟨g, by rw [hi.w]; exact hd, by rw [hg, hi.w], ?_, ?_⟩
  · have := C02_index_lists_name h
    rw [hi.prob]
    exact ⟨this.elastic, this.vGlobal, this.u, this.sot, this.fe⟩
  · intro t ht
    rw [hi.w] at ht
    rcases (C04_variables h t).2 ht with hv | ⟨-, hv⟩
    · exact .inl hv
    · exact .inr hv

/-- The rows of `xRows`, with the values of a function of stage, element and component. -/
theorem xRows_value {d : Dims} {k e : Nat} {r : List Sym} (h : r ∈ xRows po d k e)
    (F : Nat → Nat → Nat → ℝ) (f : Sym → ℝ)
    (hf : ∀ t k e i, stateAt t = some (k, e, i) → f t = F k e i) :
    r.map f = (List.range d.nX).map (F k e) := by
  rcases xRows_mem h with ⟨j, rfl⟩ | rfl
  · exact blk_map_range _ _ _ fun i => hf _ _ _ _ rfl
  · exact blk_map_range _ _ _ fun i => hf _ _ _ _ rfl

/-- The function of variables written by `set('x', …)`. -/
def stateVal (F : Nat → Nat → Nat → ℝ) (t : Sym) : ℝ := match stateAt t with
  | some (k, e, i) => F k e i
  | none => 0

theorem stateAt_isSome (t : Sym) : (stateAt t).isSome = (stateIdx t).isSome := by
  cases t with
  | st1 f => cases f <;> rfl
  | _ => rfl

/-- The values written are those of the state variables. -/
theorem SetData.state {g : Sym → ℝ} {d : Dims} (hD : SetData po d S g)
    (F : Nat → Nat → Nat → ℝ) {ks : List Nat} (hks : ∀ k < po.nStages, k ∈ ks) :
    ∀ t ∈ S.P.form.w, (stateAt t).map (fun q => F q.1 q.2.1 q.2.2)
      = if t ∈ (ks.flatMap (stageStateRows po d)).flatten then some (stateVal F t) else none := by
  intro t ht
  by_cases hm : t ∈ (ks.flatMap (stageStateRows po d)).flatten
  · rw [if_pos hm]
    have := stateIdx_of_mem hm
    rw [← stateAt_isSome] at this
    obtain ⟨q, hq⟩ := Option.isSome_iff_exists.1 this
    obtain ⟨k, e, i⟩ := q
    rw [stateVal, hq]
    rfl
  · rw [if_neg hm]
    cases hq : stateAt t with
    | none => rfl
    | some q =>
      exfalso
      have h1 : (stateIdx t).isSome = true := by rw [← stateAt_isSome, hq]; rfl
      rcases hD.var t ht with hv | ⟨k, e, i, rfl⟩ | ⟨i, rfl⟩
      · exact hm (mem_stageStateRows hv hks h1)
      · cases hq
      · cases hq

theorem range_zipIdx (n : Nat) : (List.range n).zipIdx = (List.range n).map fun k => (k, k) := by
  have := zipIdx_map_range n (fun k => k)
  rw [List.map_id'] at this
  exact this

theorem byStage_rows {g : Sym → ℝ} {d : Dims} (hD : SetData po d S g) {v : Nat → Nat → ℝ} :
    List.Forall₂ (fun q syms => Names S.P.form.w q.1 syms ∧
        (Arr.mat po.nStages d.nX v).row q.2 = .ok (syms.map (stateVal fun k _ i => v k i)))
      (byStage (fun fi => fi.one .x) S.P.idx)
      ((List.range po.nStages).flatMap (stageStateRows po d)) := by
  have h1 := forall₂_and_mem (forall₂_zipIdx hD.spec.fe 0)
  have h2 : (List.range po.nStages).flatMap (stageStateRows po d)
      = (List.range po.nStages).zipIdx.flatMap fun q => stageStateRows po d q.1 := by
    rw [range_zipIdx, List.flatMap_map]
  rw [h2]
  refine forall₂_flatMap h1 fun a b hab => ?_
  obtain ⟨⟨hab, he⟩, hb⟩ := hab
  rw [range_zipIdx] at hb
  obtain ⟨k, hk, rfl⟩ := List.mem_map.1 hb
  rw [List.mem_range] at hk
  refine forall₂_flatMap (forall₂_and_mem hab) fun fi e hfe => ?_
  rw [List.forall₂_map_left_iff]
  refine (forall₂_and_mem hfe.1.x).imp fun ix r hr => ⟨hr.1, ?_⟩
  rw [he]
  simp only [Arr.row, if_pos hk]
  rw [xRows_value hr.2 (fun k _ i => v k i) _ fun t k e i ht => by rw [stateVal, ht]]

theorem byElement_rows {g : Sym → ℝ} {d : Dims} (hD : SetData po d S g) {v : Nat → Nat → ℝ}
    {r : Nat} (hr : r = ∑ k ∈ Finset.range po.nStages, nfe po k) :
    List.Forall₂ (fun q syms => Names S.P.form.w q.1 syms ∧
        (Arr.mat r d.nX v).row q.2
          = .ok (syms.map (stateVal fun k e i => v (elemNo po k e) i)))
      (byElement (fun fi => fi.one .x) S.P.idx)
      ((List.range po.nStages).flatMap (stageStateRows po d)) := by
  have h1 := forall₂_and_mem (forall₂_zipIdx hD.spec.flat 0)
  obtain ⟨hz, hl⟩ := elems_zipIdx po po.nStages
  have h2 : (List.range po.nStages).flatMap (stageStateRows po d)
      = ((List.range po.nStages).flatMap fun k => (List.range (nfe po k)).map fun e => (k, e)).zipIdx.flatMap
        fun q => xRows po d q.1.1 q.1.2 := by
    rw [← List.flatMap_map Prod.fst (fun q : Nat × Nat => xRows po d q.1 q.2), List.zipIdx_map_fst,
      List.flatMap_assoc]
    congr 1
    funext k
    rw [List.flatMap_map]
    rfl
  rw [h2]
  refine forall₂_flatMap h1 fun a b hab => ?_
  obtain ⟨⟨hab, he⟩, hb⟩ := hab
  have hlt : a.2 < r := by
    rw [he, hr, ← hl]
    have := List.snd_lt_of_mem_zipIdx hb
    omega
  rw [List.forall₂_map_left_iff]
  refine (forall₂_and_mem hab.x).imp fun ix row hrow => ⟨hrow.1, ?_⟩
  simp only [Arr.row, if_pos hlt]
  rw [xRows_value hrow.2 (fun k e i => v (elemNo po k e) i) _ fun t k e i ht => by rw [stateVal, ht],
    he, hz b hb]

theorem sum_nfeList (hL : po.nfeList.length = po.nStages) :
    po.nfeList.sum = ∑ k ∈ Finset.range po.nStages, nfe po k := by
  rw [nfeList_eq hL]
  induction po.nStages with
  | zero => rfl
  | succ n ih => rw [List.range_succ, List.map_append, List.sum_append, ih, Finset.sum_range_succ]; simp

theorem thenWarn_setW0 (S : Solver) (w0 : List ℝ) : thenWarn (S.setW0 w0, none)
    = (S.setW0 w0, if S.o.initStrategy = .external then none else some .warning) := rfl

/-- C55: `set('x', value)` with one row per control stage writes row `k`, component `i` into the guess
of every state variable of control stage `k` (stage states and end states of all its elements) and
changes nothing else.  It then raises a warning unless the initialisation strategy is EXTERNAL. -/
theorem C55_states_by_stage (h : Setup colloc o um uo po m oc P)
    (hS : Reachable colloc o um uo orc S) (hr : Ready um S) (v : Nat → Nat → ℝ) :
    ∃ S', S.set .x (.mat o.nStages um.nX v)
        = (S', if o.initStrategy = .external then none else some .warning) ∧
      Wrote S S' fun t => (stateAt t).map fun q => v q.1 q.2.2 := by
  obtain ⟨g, hD⟩ := h.setData hS hr
  have hi := hS.inv h
  have e1 : po.nStages = o.nStages := by rw [h.opts]
  have e2 : po.initStrategy = o.initStrategy := by rw [h.opts]
  have hx := h.dims.1
  refine ⟨_, ?_, wrote_of_map (f := stateVal fun k _ i => v k i) hD.guess
    (hD.state (fun k _ i => v k i) (ks := List.range po.nStages) fun k hk => List.mem_range.2 hk)⟩
  have := writeRows_eq hD.nodup hD.guess (byStage_rows hD (v := v))
  rw [e1, hx] at this
  simp only [Solver.set, Solver.setX, Solver.setXWrites]
  rw [hi.opts, e1, if_pos (show (Arr.mat o.nStages um.nX v).shape0 = o.nStages from rfl), this]
  rw [thenWarn_setW0, hi.opts, e2]

/-- C55: the same with one row per finite element: row `elemNo k e` (counted over the horizon) goes to
the states of element `e` of control stage `k`. -/
theorem C55_states_by_element (h : Setup colloc o um uo po m oc P)
    (hS : Reachable colloc o um uo orc S) (hr : Ready um S)
    (hL : o.nfeAfter.length = o.nStages) (v : Nat → Nat → ℝ) :
    ∃ S', S.set .x (.mat o.nfeAfter.sum um.nX v)
        = (S', if o.initStrategy = .external then none else some .warning) ∧
      Wrote S S' fun t => (stateAt t).map fun q => v (elemNo po q.1 q.2.1) q.2.2 := by
  obtain ⟨g, hD⟩ := h.setData hS hr
  have hi := hS.inv h
  have e1 : po.nStages = o.nStages := by rw [h.opts]
  have e2 : po.initStrategy = o.initStrategy := by rw [h.opts]
  have e3 : po.nfeList = o.nfeAfter := by rw [h.opts]
  have hx := h.dims.1
  have hL' : po.nfeList.length = po.nStages := by rw [e3, e1]; exact hL
  by_cases hc : o.nfeAfter.sum = o.nStages
  · -- one element per stage: row number and stage number agree
    obtain ⟨S', h1, w0, h2, h3, h4⟩ := C55_states_by_stage h hS hr v
    rw [hc]
    refine ⟨S', h1, w0, h2, h3, fun i t ht => ?_⟩
    rw [h4 i t ht]
    have hone : ∀ k < po.nStages, nfe po k = 1 := by
      have hpos := fun k hk => (h.built.ok.primal.nfe k hk).2
      have hs : ∑ k ∈ Finset.range po.nStages, nfe po k = ∑ k ∈ Finset.range po.nStages, 1 := by
        rw [← sum_nfeList hL', e3, hc]; simp [e1]
      intro k hk
      have := (Finset.sum_eq_sum_iff_of_le (s := Finset.range po.nStages) (f := fun _ => 1)
        (g := nfe po) fun k hk => hpos k (Finset.mem_range.1 hk)).1 hs.symm
      exact (this k (Finset.mem_range.2 hk)).symm
    have hno : ∀ q, stateAt t = some q → elemNo po q.1 q.2.1 = q.1 := by
      intro q hq
      have hFE : HasFE po q.1 q.2.1 := by
        rcases hD.var t (List.mem_of_getElem? ht) with hv | ⟨k, e, i, rfl⟩ | ⟨i, rfl⟩
        · cases t with
          | st1 f k e j i =>
            cases f with
            | x => cases hq; exact hv.2.1
            | v => cases hq
            | z => cases hq
          | xEnd k e i => cases hq; exact hv.2.1
          | _ => cases hq
        · cases hq
        · cases hq
      have h0 := hFE.2
      rw [hone _ hFE.1] at h0
      have : ∑ k' ∈ Finset.range q.1, nfe po k' = q.1 := by
        rw [Finset.sum_congr rfl fun k hk => hone k (by
          have := Finset.mem_range.1 hk; have := hFE.1; omega)]
        simp
      rw [elemNo, this]; omega
    beta_reduce
    have : (stateAt t).map (fun q => v q.1 q.2.2)
        = (stateAt t).map (fun q => v (elemNo po q.1 q.2.1) q.2.2) := by
      cases hq : stateAt t with
      | none => rfl
      | some q => simp only [Option.map_some]; rw [hno q hq]
    rw [this]
  refine ⟨_, ?_, wrote_of_map (f := stateVal fun k e i => v (elemNo po k e) i) hD.guess
    (hD.state (fun k e i => v (elemNo po k e) i) (ks := List.range po.nStages)
      fun k hk => List.mem_range.2 hk)⟩
  have := writeRows_eq hD.nodup hD.guess (byElement_rows hD (v := v) (sum_nfeList hL').symm.symm)
  rw [e1, e3, hx] at this
  simp only [Solver.set, Solver.setX, Solver.setXWrites]
  rw [hi.opts, e1, if_neg (show ¬ (Arr.mat o.nfeAfter.sum um.nX v).shape0 = _ from hc), e3,
    if_pos (show (Arr.mat o.nfeAfter.sum um.nX v).shape0 = o.nfeAfter.sum from rfl), this]
  rw [thenWarn_setW0, hi.opts, e2]

/-- C55: with any other number of rows `set('x', value)` raises ValueError and changes nothing. -/
theorem C55_states_wrong_rows (h : Setup colloc o um uo po m oc P)
    (hS : Reachable colloc o um uo orc S) (value : Arr) (h1 : value.shape0 ≠ o.nStages)
    (h2 : value.shape0 ≠ o.nfeAfter.sum) : S.set .x value = (S, some .valueError) := by
  have hi := hS.inv h
  have e1 : po.nStages = o.nStages := by rw [h.opts]
  have e3 : po.nfeList = o.nfeAfter := by rw [h.opts]
  simp only [Solver.set, Solver.setX, Solver.setXWrites]
  rw [hi.opts, e1, e3, if_neg h1, if_neg h2]
  rfl

theorem mem_byStage {w : List Sym} {d : Dims} {idx : List (List FEIdx)}
    (h : List.Forall₂ (fun row k => List.Forall₂ (fun fi e => FENames po d w k e fi) row
      (List.range (nfe po k))) idx (List.range po.nStages)) :
    ∀ q ∈ byStage (fun fi => fi.one .x) idx, q.2 < po.nStages := by
  intro q hq
  unfold byStage at hq
  obtain ⟨a, ha, hq⟩ := List.mem_flatMap.1 hq
  obtain ⟨fi, -, hq⟩ := List.mem_flatMap.1 hq
  obtain ⟨ix, -, rfl⟩ := List.mem_map.1 hq
  have := List.snd_lt_of_mem_zipIdx ha
  have hl := h.length_eq
  rw [List.length_range] at hl
  simp only at this ⊢
  omega

/-- C55: with the right number of rows but rows of the wrong length (and not of length 1, which NumPy
repeats) `set('x', value)` raises ValueError and changes nothing. -/
theorem C55_states_wrong_columns (h : Setup colloc o um uo po m oc P)
    (hS : Reachable colloc o um uo orc S) (hr : Ready um S) (hL : o.nfeAfter.length = o.nStages)
    (r c : Nat) (v : Nat → Nat → ℝ) (h1 : r = o.nStages ∨ r = o.nfeAfter.sum) (h2 : c ≠ um.nX)
    (h3 : c ≠ 1) : S.set .x (.mat r c v) = (S, some .valueError) := by
  obtain ⟨g, hD⟩ := h.setData hS hr
  have hi := hS.inv h
  have e1 : po.nStages = o.nStages := by rw [h.opts]
  have e3 : po.nfeList = o.nfeAfter := by rw [h.opts]
  have hL' : po.nfeList.length = po.nStages := by rw [e3, e1]; exact hL
  have hx := h.dims.1
  have hn : 0 < po.nStages := Nat.pos_of_ne_zero h.built.ok.primal.stages
  have hp := (h.built.ok.primal.nfe 0 hn).2
  -- the first write
  have key : ∀ l : List (List Nat × Nat), List.Forall₂ (fun q syms => Names S.P.form.w q.1 syms ∧
      q.2 < r) l ((List.range po.nStages).flatMap (stageStateRows po m.dims)) →
      S.writeRows (.mat r c v) l = (S, some .valueError) := by
    intro l hl
    unfold Solver.writeRows
    rw [withRows_mat (by
      intro q hq
      obtain ⟨_, _, hq⟩ := forall₂_mem_left hl q hq
      exact hq.2)]
    dsimp only
    cases l with
    | nil =>
      exfalso
      have hl := hl.length_eq
      obtain ⟨K, hK⟩ : ∃ K, po.nStages = K + 1 := ⟨po.nStages - 1, by omega⟩
      obtain ⟨E, hE⟩ : ∃ E, nfe po 0 = E + 1 := ⟨nfe po 0 - 1, by omega⟩
      have hx := xRows_ne_nil (po := po) (d := m.dims) (k := 0) (e := 0) h.built.nS
      rw [hK, List.range_succ_eq_map, List.flatMap_cons, stageStateRows, hE,
        List.range_succ_eq_map, List.flatMap_cons] at hl
      cases hx0 : xRows po m.dims 0 0 with
      | nil => exact hx hx0
      | cons a t => rw [hx0] at hl; simp at hl
    | cons q l =>
      obtain ⟨syms, hsy, hq⟩ := forall₂_mem_left hl q List.mem_cons_self
      have hlen : syms.length = um.nX := by
        obtain ⟨k, -, hsy⟩ := List.mem_flatMap.1 hsy
        obtain ⟨e, -, hsy⟩ := List.mem_flatMap.1 hsy
        rw [← hx]
        rcases xRows_mem hsy with ⟨j, rfl⟩ | rfl <;> simp [blk]
      rw [List.map_cons]
      refine write_wrong ?_ ?_ (by simpa using h3)
      · intro i hi'
        rw [hD.guess, List.length_map]
        exact hq.1.lt i hi'
      · rw [List.length_map, List.length_range, hq.1.length, hlen]
        exact h2
  simp only [Solver.set, Solver.setX, Solver.setXWrites]
  rw [hi.opts, e1, e3]
  by_cases hc : r = o.nStages
  · have h4 := byStage_rows hD (v := fun _ _ => 0)
    rw [if_pos (show (Arr.mat r c v).shape0 = _ from hc), key _ (by
      refine (forall₂_and_mem_left h4).imp fun q syms hq => ⟨hq.1.1, ?_⟩
      rw [hc, ← e1]
      exact mem_byStage hD.spec.fe q hq.2)]
    rfl
  · have hc' : r = o.nfeAfter.sum := h1.resolve_left hc
    have hs := sum_nfeList hL'
    rw [e3, ← hc'] at hs
    have h4 := byElement_rows hD (v := fun _ _ => 0) hs
    rw [if_neg (show ¬ (Arr.mat r c v).shape0 = _ from hc),
      if_pos (show (Arr.mat r c v).shape0 = _ from hc'), key _ (by
      refine h4.imp fun q syms hq => ⟨hq.1, ?_⟩
      by_contra hlt
      have := hq.2
      simp only [Arr.row, if_neg hlt] at this
      cases this)]
    rfl

/-! ### Controls and global variables -/

theorem setArr_eq {g : Sym → ℝ} {d : Dims} (hD : SetData po d S g) {ind : List (List Nat)}
    {symss : List (List Sym)} (hn : List.Forall₂ (Names S.P.form.w) ind symss) {n : Nat}
    (hlen : ∀ l ∈ symss, l.length = n) (hn0 : 0 < n) (hs : symss ≠ []) (f : Sym → ℝ) {value : Arr}
    (hv : value.bcast2 symss.length n = .ok (symss.map (List.map f))) :
    S.setArr ind value
      = (S.setW0 (S.P.form.w.map fun t => if t ∈ symss.flatten then f t else g t), none) := by
  have hl : ∀ l ∈ ind, l.length = n := by
    intro l hl
    obtain ⟨s, hs, h⟩ := forall₂_mem_left hn l hl
    rw [h.length, hlen s hs]
  have hne : ind ≠ [] := by
    rintro rfl
    cases hn
    exact hs rfl
  have h1 : npIndex2 ind = .ok ind := by
    unfold npIndex2
    rw [sameLen_of hl]
    simp only [Bool.true_eq_false, if_false]
    rw [if_neg]
    intro hc
    obtain ⟨a, l, rfl⟩ := List.exists_cons_of_ne_nil hne
    have := hl a List.mem_cons_self
    rw [List.flatten_cons, List.append_eq_nil_iff] at hc
    rw [hc.1] at this
    simp at this
    omega
  have h2 : (ind.headD []).length = n := by
    obtain ⟨a, l, rfl⟩ := List.exists_cons_of_ne_nil hne
    exact hl a List.mem_cons_self
  unfold Solver.setArr
  rw [h1]
  show (match (do
    let v ← value.bcast2 ind.length ((ind.headD []).length)
    (.ok (ind.zip v) : Except PyErr _)) with
    | .error e => (S, some e)
    | .ok l => S.write l) = _
  rw [h2, hn.length_eq, hv]
  show S.write _ = _
  unfold Solver.write
  rw [hD.guess, npAssignAll_map hD.nodup f hn g]

/-- The function of variables written by `set('u', …)`. -/
def controlVal (v : Nat → Nat → ℝ) (t : Sym) : ℝ := match controlAt t with
  | some (k, i) => v k i
  | none => 0

/-- C55: `set('u', value)` with one row per control stage writes row `k` into the controls of stage
`k` and changes nothing else. -/
theorem C55_controls (h : Setup colloc o um uo po m oc P)
    (hS : Reachable colloc o um uo orc S) (hr : Ready um S) (hu : 0 < um.nU) (v : Nat → Nat → ℝ) :
    ∃ S', S.set .u (.mat o.nStages um.nU v) = (S', none) ∧
      Wrote S S' fun t => (controlAt t).map fun q => v q.1 q.2 := by
  obtain ⟨g, hD⟩ := h.setData hS hr
  have hi := hS.inv h
  have e1 : po.nStages = o.nStages := by rw [h.opts]
  have hx := h.dims.2.1
  have hn : 0 < po.nStages := Nat.pos_of_ne_zero h.built.ok.primal.stages
  refine ⟨_, setArr_eq hD hD.spec.u (n := um.nU) (f := controlVal v) ?_ hu ?_ ?_,
    wrote_of_map hD.guess ?_⟩
  · intro l hl
    obtain ⟨k, -, rfl⟩ := List.mem_map.1 hl
    simp [blk, hx]
  · simp; omega
  · simp only [Arr.bcast2, List.length_map, List.length_range, e1, true_or, and_self, if_true,
      List.map_map]
    congr 1
    apply List.map_congr_left
    intro k _
    rw [← hx]
    exact (blk_map_range (Sym.u k) (controlVal v) (v k) fun i => rfl).symm
  · intro t ht
    by_cases hm : t ∈ ((List.range po.nStages).map fun k => blk m.dims.nU (.u k)).flatten
    · rw [if_pos hm]
      obtain ⟨l, hl, hm⟩ := List.mem_flatten.1 hm
      obtain ⟨k, -, rfl⟩ := List.mem_map.1 hl
      obtain ⟨i, -, rfl⟩ := List.mem_map.1 hm
      rfl
    · rw [if_neg hm]
      rcases hD.var t ht with hv | ⟨k, e, i, rfl⟩ | ⟨i, rfl⟩
      · cases t with
        | u k i =>
          exact absurd (List.mem_flatten.2 ⟨_, List.mem_map.2 ⟨k, List.mem_range.2 hv.1, rfl⟩,
            List.mem_map.2 ⟨i, List.mem_range.2 hv.2, rfl⟩⟩) hm
        | _ => rfl
      · rfl
      · rfl

/-- C55: a two-dimensional value whose number of rows is neither `N_stages` nor 1 is rejected by
`set('u', value)` without modification (one row is repeated for every stage). -/
theorem C55_controls_wrong_rows (h : Setup colloc o um uo po m oc P)
    (hS : Reachable colloc o um uo orc S) (r c : Nat) (v : Nat → Nat → ℝ)
    (h1 : r ≠ o.nStages) (h2 : r ≠ 1) : ∃ e, S.set .u (.mat r c v) = (S, some e) := by
  have hi := hS.inv h
  have hn := (C02_index_lists_name h).u.length_eq
  have e1 : po.nStages = o.nStages := by rw [h.opts]
  simp only [Solver.set, Solver.setArr]
  rw [hi.indU]
  cases h3 : npIndex2 P.indU with
  | error e => exact ⟨e, rfl⟩
  | ok ix =>
    have : ix = P.indU := by
      unfold npIndex2 at h3
      split at h3
      · cases h3
      · split at h3 <;> cases h3
        rfl
    subst this
    have h4 : (Arr.mat r c v).bcast2 P.indU.length ((P.indU.headD []).length)
        = .error .valueError := by
      simp only [Arr.bcast2]
      rw [if_neg]
      rw [hn, List.length_map, List.length_range, e1]
      simp [h1, h2]
    refine ⟨.valueError, ?_⟩
    show (match (do
      let v ← (Arr.mat r c v).bcast2 P.indU.length ((P.indU.headD []).length)
      (.ok (P.indU.zip v) : Except PyErr _)) with
      | .error e => (S, some e)
      | .ok l => S.write l) = _
    rw [h4]
    rfl

/-- The function of variables written by `set('v_global', …)`. -/
def globalVal (v : Nat → ℝ) (t : Sym) : ℝ := match globalAt t with
  | some i => v i
  | none => 0

/-- C55: `set('v_global', value)` with one entry per global variable writes them and changes nothing
else. -/
theorem C55_globals (h : Setup colloc o um uo po m oc P)
    (hS : Reachable colloc o um uo orc S) (hr : Ready um S) (hu : 0 < um.nV) (v : Nat → ℝ) :
    ∃ S', S.set .vGlobal (.vec ((List.range um.nV).map v)) = (S', none) ∧
      Wrote S S' fun t => (globalAt t).map v := by
  obtain ⟨g, hD⟩ := h.setData hS hr
  have hi := hS.inv h
  have hx := h.dims.2.2.2.1
  refine ⟨_, setArr_eq hD hD.spec.vGlobal (n := um.nV) (f := globalVal v) ?_ hu ?_ ?_,
    wrote_of_map hD.guess ?_⟩
  · intro l hl
    obtain rfl : l = blk m.dims.nV .vGlob := by simpa using hl
    simp [blk, hx]
  · simp
  · simp only [Arr.bcast2, bcast, List.length_map, List.length_range, if_true, List.length_cons,
      List.length_nil]
    rw [← hx, List.map_cons, List.map_nil, blk_map_range Sym.vGlob (globalVal v) v fun i => rfl]
    rfl
  · intro t ht
    by_cases hm : t ∈ [blk m.dims.nV Sym.vGlob].flatten
    · rw [if_pos hm]
      obtain ⟨i, -, rfl⟩ := List.mem_map.1 (by simpa using hm : t ∈ blk m.dims.nV Sym.vGlob)
      rfl
    · rw [if_neg hm]
      rcases hD.var t ht with hv | ⟨k, e, i, rfl⟩ | ⟨i, rfl⟩
      · cases t with
        | vGlob i =>
          exact absurd (List.mem_flatten.2 ⟨_, List.mem_singleton_self _,
            List.mem_map.2 ⟨i, List.mem_range.2 hv, rfl⟩⟩) hm
        | _ => rfl
      · rfl
      · rfl

/-- C55: a vector whose length is neither the number of global variables nor 1 is rejected without
modification. -/
theorem C55_globals_wrong_length (h : Setup colloc o um uo po m oc P)
    (hS : Reachable colloc o um uo orc S) (v : List ℝ) (h1 : v.length ≠ um.nV)
    (h2 : v.length ≠ 1) : ∃ e, S.set .vGlobal (.vec v) = (S, some e) := by
  have hi := hS.inv h
  have hn := (C02_index_lists_name h).vGlobal
  have hx := h.dims.2.2.2.1
  simp only [Solver.set, Solver.setArr]
  rw [hi.indVGlobal]
  cases h3 : npIndex2 P.indVGlobal with
  | error e => exact ⟨e, rfl⟩
  | ok ix =>
    have : ix = P.indVGlobal := by
      unfold npIndex2 at h3
      split at h3
      · cases h3
      · split at h3 <;> cases h3
        rfl
    subst this
    have h5 : (P.indVGlobal.headD []).length = um.nV := by
      generalize P.indVGlobal = l at hn
      cases hn with
      | cons a b =>
        cases b
        have := a.length
        rw [← hx, List.headD_cons, this]; simp [blk]
    have h4 : (Arr.vec v).bcast2 P.indVGlobal.length ((P.indVGlobal.headD []).length)
        = .error .valueError := by
      simp only [Arr.bcast2]
      rw [h5]
      have : bcast um.nV v = .error .valueError := by
        unfold bcast
        rw [if_neg h1]
        match v, h2 with
        | [], _ => rfl
        | [_], h2 => exact absurd rfl h2
        | _ :: _ :: _, _ => rfl
      rw [this]
      rfl
    refine ⟨.valueError, ?_⟩
    show (match (do
      let v ← (Arr.vec v).bcast2 P.indVGlobal.length ((P.indVGlobal.headD []).length)
      (.ok (P.indVGlobal.zip v) : Except PyErr _)) with
      | .error e => (S, some e)
      | .ok l => S.write l) = _
    rw [h4]
    rfl

/-! ### Stewart multipliers -/

/-- The function of variables written by `set('theta', …)`. -/
def thetaVal (F : Nat → Nat → Nat → ℝ) (t : Sym) : ℝ := match thetaNo t with
  | some (k, e, _, i) => F k e i
  | none => 0

theorem listIndex2_ok {ix : List (List Nat)} {n : Nat} (hn : ∀ l ∈ ix, l.length = n) :
    listIndex2 ix = .ok ix := by
  unfold listIndex2
  rw [sameLen_of hn]
  rfl

/-- The `theta` symbols of one element. -/
def thetaRows (po : PreOpts) (d : Dims) (k e : Nat) : List (List (List Sym)) :=
  famRows d po.nS (fun s => if po.pss = .stewart then d.nF s else 0) .theta k e

theorem mem_thetaRows {d : Dims} {k e : Nat} {r : List Sym} (h : r ∈ (thetaRows po d k e).flatten) :
    ∃ j < po.nS, ∃ s < d.nSys,
      r = blk (if po.pss = .stewart then d.nF s else 0) (.st2 .theta k e j s) := by
  obtain ⟨l, hl, hr⟩ := List.mem_flatten.1 h
  obtain ⟨j, hj, rfl⟩ := List.mem_map.1 hl
  obtain ⟨s, hs, rfl⟩ := List.mem_map.1 hr
  exact ⟨j, List.mem_range.1 hj, s, List.mem_range.1 hs, rfl⟩

theorem forall₂_join {α β : Type} {R : α → β → Prop} {l : List (List α)} {l' : List (List β)}
    (h : List.Forall₂ (List.Forall₂ R) l l') : List.Forall₂ R l.flatten l'.flatten := by
  induction h with
  | nil => exact .nil
  | cons hr _ ih => exact List.rel_append hr ih

theorem theta_index {g : Sym → ℝ} {d : Dims} (hD : SetData po d S g) {n : Nat}
    (hn : ∀ s < d.nSys, (if po.pss = .stewart then d.nF s else 0) = n) :
    (S.P.idx.flatten.zipIdx.mapM fun (q : FEIdx × Nat) => do
        let rows ← (q.1.two .theta).mapM listIndex2
        (.ok (rows.flatten.map fun ix => (ix, q.2)) : Except PyErr (List (List Nat × Nat))))
      = .ok (S.P.idx.flatten.zipIdx.map fun q => (q.1.two .theta).flatten.map fun ix => (ix, q.2)) := by
  refine mapM_ok fun q hq => ?_
  obtain ⟨b, -, hb⟩ := forall₂_mem_left hD.spec.flat q.1 (List.fst_mem_of_mem_zipIdx hq)
  have h1 : (q.1.two .theta).mapM listIndex2 = .ok ((q.1.two .theta).map id) := by
    refine mapM_ok fun row hrow => listIndex2_ok (n := n) fun ix hix => ?_
    obtain ⟨c, hc, hrc⟩ := forall₂_mem_left hb.theta row hrow
    obtain ⟨sy, hsy, hn'⟩ := forall₂_mem_left hrc ix hix
    obtain ⟨j, -, s, hs, rfl⟩ := mem_thetaRows (List.mem_flatten.2 ⟨c, hc, hsy⟩)
    rw [hn'.length, ← hn s hs]
    simp [blk]
  rw [h1, List.map_id]
  rfl

theorem theta_rows {g : Sym → ℝ} {d : Dims} (hD : SetData po d S g) {v : Nat → Nat → ℝ} {n : Nat}
    (hn : ∀ s < d.nSys, (if po.pss = .stewart then d.nF s else 0) = n)
    {r : Nat} (hr : r = ∑ k ∈ Finset.range po.nStages, nfe po k) :
    List.Forall₂ (fun q syms => Names S.P.form.w q.1 syms ∧
        (Arr.mat r n v).row q.2
          = .ok (syms.map (thetaVal fun k e i => v (elemNo po k e) i)))
      (S.P.idx.flatten.zipIdx.map fun q => (q.1.two .theta).flatten.map fun ix => (ix, q.2)).flatten
      ((elements po).zipIdx.flatMap fun q => (thetaRows po d q.1.1 q.1.2).flatten) := by
  have h1 := forall₂_and_mem (forall₂_zipIdx hD.spec.flat 0)
  obtain ⟨hz, hl⟩ := elems_zipIdx po po.nStages
  rw [← List.flatMap_def]
  refine forall₂_flatMap h1 fun a b hab => ?_
  obtain ⟨⟨hab, he⟩, hb⟩ := hab
  have hlt : a.2 < r := by
    rw [he, hr, ← hl]
    have := List.snd_lt_of_mem_zipIdx hb
    omega
  rw [List.forall₂_map_left_iff]
  refine (forall₂_and_mem (forall₂_join hab.theta)).imp fun ix row hrow => ⟨hrow.1, ?_⟩
  simp only [Arr.row, if_pos hlt]
  obtain ⟨j, -, s, hs, rfl⟩ := mem_thetaRows hrow.2
  rw [hn s hs, blk_map_range _ _ (v (elemNo po b.1.1 b.1.2)) fun i => rfl, he, hz b hb]

/-- C55 (partial): `set('theta', value)` with one row per finite element writes row `elemNo k e` into
the multipliers of every subsystem at every stage of element `e` of control stage `k`, and changes
nothing else.

Missing: with several subsystems the multipliers of the subsystems cannot be given separately, see
`C55_theta_several_systems_violated`. -/
theorem C55_theta_partial (h : Setup colloc o um uo po m oc P)
    (hS : Reachable colloc o um uo orc S) (hr : Ready um S) (hst : o.pss = .stewart)
    (hL : o.nfeAfter.length = o.nStages) (n : Nat) (hn : ∀ s < um.nSys, (um.Fmat s).nCols = n)
    (v : Nat → Nat → ℝ) :
    ∃ S', S.set .theta (.mat o.nfeAfter.sum n v) = (S', none) ∧
      Wrote S S' fun t => (thetaNo t).map fun q => v (elemNo po q.1 q.2.1) q.2.2.2 := by
  obtain ⟨g, hD⟩ := h.setData hS hr
  have hi := hS.inv h
  have e1 : po.nStages = o.nStages := by rw [h.opts]
  have e2 : po.pss = .stewart := by rw [h.opts]; exact hst
  have e3 : po.nfeList = o.nfeAfter := by rw [h.opts]
  have hL' : po.nfeList.length = po.nStages := by rw [e3, e1]; exact hL
  have hx := h.dims.2.2.2.2.2.2.1
  have hnF : ∀ s < m.dims.nSys, (if po.pss = .stewart then m.dims.nF s else 0) = n := by
    intro s hs
    rw [hx] at hs
    rw [if_pos e2, h.dims.2.2.2.2.2.2.2.1 e2 s hs, hn s hs]
  have hrows := theta_rows hD (v := v) hnF (sum_nfeList hL')
  rw [e3] at hrows
  refine ⟨_, ?_, wrote_of_map (f := thetaVal fun k e i => v (elemNo po k e) i)
    (syms := ((elements po).zipIdx.flatMap
      fun q => (thetaRows po m.dims q.1.1 q.1.2).flatten).flatten) hD.guess ?_⟩
  · simp only [Solver.set, Solver.setTheta]
    rw [hi.opts, e3, if_pos (show (Arr.mat o.nfeAfter.sum n v).shape0 = o.nfeAfter.sum from rfl),
      theta_index hD hnF]
    show (match withRows (Arr.mat o.nfeAfter.sum n v) _ with
      | .error e => (S, some e)
      | .ok l => S.write l) = _
    exact writeRows_eq hD.nodup hD.guess hrows
  · intro t ht
    by_cases hm : t ∈ ((elements po).zipIdx.flatMap
      fun q => (thetaRows po m.dims q.1.1 q.1.2).flatten).flatten
    · rw [if_pos hm]
      obtain ⟨l, hl, hm⟩ := List.mem_flatten.1 hm
      obtain ⟨q, -, hl⟩ := List.mem_flatMap.1 hl
      obtain ⟨j, -, s, -, rfl⟩ := mem_thetaRows hl
      obtain ⟨i, -, rfl⟩ := List.mem_map.1 hm
      rfl
    · rw [if_neg hm]
      rcases hD.var t ht with hv | ⟨k, e, i, rfl⟩ | ⟨i, rfl⟩
      · cases t with
        | st2 f k e j s i =>
          cases f with
          | theta =>
            exfalso
            apply hm
            obtain ⟨-, h2, h3, h4, h5⟩ := hv
            have hmem : (k, e) ∈ elements po := List.mem_flatMap.2
              ⟨k, List.mem_range.2 h2.1, List.mem_map.2 ⟨e, List.mem_range.2 h2.2, rfl⟩⟩
            obtain ⟨n', hn', he'⟩ := List.mem_iff_getElem.1 hmem
            refine List.mem_flatten.2 ⟨blk (m.dims.nF s) (.st2 .theta k e j s),
              List.mem_flatMap.2 ⟨((k, e), n'), ?_, ?_⟩, List.mem_map.2 ⟨i, List.mem_range.2 h5, rfl⟩⟩
            · rw [List.mk_mem_zipIdx_iff_getElem?, List.getElem?_eq_getElem hn', he']
            · refine List.mem_flatten.2 ⟨_, List.mem_map.2 ⟨j, List.mem_range.2 h3, rfl⟩,
                List.mem_map.2 ⟨s, List.mem_range.2 h4, ?_⟩⟩
              beta_reduce
              rw [if_pos e2]
          | _ => rfl
        | _ => rfl
      · rfl
      · rfl

/-- C55: with any other number of rows `set('theta', value)` raises and changes nothing. -/
theorem C55_theta_wrong_rows (h : Setup colloc o um uo po m oc P)
    (hS : Reachable colloc o um uo orc S) (value : Arr) (h2 : value.shape0 ≠ o.nfeAfter.sum) :
    S.set .theta value = (S, some .exception) := by
  have hi := hS.inv h
  have e3 : po.nfeList = o.nfeAfter := by rw [h.opts]
  simp only [Solver.set, Solver.setTheta]
  rw [hi.opts, e3, if_neg h2]

/-- C55 fails for `theta` with several subsystems: an array of the documented shape, one row per finite
element and one column per multiplier (all subsystems), is rejected.  Whatever is accepted gives all
subsystems the same values (`C55_theta_partial`). -/
theorem C55_theta_several_systems_violated (h : Setup colloc o um uo po m oc P)
    (hS : Reachable colloc o um uo orc S) (hr : Ready um S) (hst : o.pss = .stewart)
    (hL : o.nfeAfter.length = o.nStages) (n : Nat) (hn : ∀ s < um.nSys, (um.Fmat s).nCols = n)
    (hn0 : 0 < n) (hsys : 2 ≤ um.nSys) (v : Nat → Nat → ℝ) :
    S.set .theta (.mat o.nfeAfter.sum (um.nSys * n) v) = (S, some .valueError) := by
  obtain ⟨g, hD⟩ := h.setData hS hr
  have hi := hS.inv h
  have e1 : po.nStages = o.nStages := by rw [h.opts]
  have e2 : po.pss = .stewart := by rw [h.opts]; exact hst
  have e3 : po.nfeList = o.nfeAfter := by rw [h.opts]
  have hL' : po.nfeList.length = po.nStages := by rw [e3, e1]; exact hL
  have hx := h.dims.2.2.2.2.2.2.1
  have hnF : ∀ s < m.dims.nSys, (if po.pss = .stewart then m.dims.nF s else 0) = n := by
    intro s hs
    rw [hx] at hs
    rw [if_pos e2, h.dims.2.2.2.2.2.2.2.1 e2 s hs, hn s hs]
  have hrows := theta_rows hD (v := v) hnF (sum_nfeList hL')
  rw [e3] at hrows
  have hge : 2 * n ≤ um.nSys * n := Nat.mul_le_mul_right n hsys
  simp only [Solver.set, Solver.setTheta]
  rw [hi.opts, e3,
    if_pos (show (Arr.mat o.nfeAfter.sum (um.nSys * n) v).shape0 = o.nfeAfter.sum from rfl),
    theta_index hD hnF]
  show (match withRows (Arr.mat o.nfeAfter.sum (um.nSys * n) v) _ with
    | .error e => (S, some e)
    | .ok l => S.write l) = _
  generalize (S.P.idx.flatten.zipIdx.map
    fun q => (q.1.two .theta).flatten.map fun ix => (ix, q.2)).flatten = l at hrows
  rw [withRows_mat (by
    intro q hq
    obtain ⟨_, _, hq⟩ := forall₂_mem_left hrows q hq
    by_contra hlt
    have := hq.2
    simp only [Arr.row, if_neg hlt] at this
    cases this)]
  dsimp only
  cases l with
  | nil =>
    exfalso
    have h0 : (0, 0) ∈ elements po := by
      have h1 := Nat.pos_of_ne_zero h.built.ok.primal.stages
      exact List.mem_flatMap.2 ⟨0, List.mem_range.2 h1, List.mem_map.2 ⟨0, List.mem_range.2
        (h.built.ok.primal.nfe 0 h1).2, rfl⟩⟩
    obtain ⟨n', hn', he'⟩ := List.mem_iff_getElem.1 h0
    have hmem : blk n (.st2 .theta 0 0 0 0) ∈ (elements po).zipIdx.flatMap
        fun q => (thetaRows po m.dims q.1.1 q.1.2).flatten := by
      refine List.mem_flatMap.2 ⟨((0, 0), n'), ?_, List.mem_flatten.2
        ⟨_, List.mem_map.2 ⟨0, List.mem_range.2 h.built.nS, rfl⟩, List.mem_map.2
          ⟨0, List.mem_range.2 (by rw [hx]; omega), ?_⟩⟩⟩
      · rw [List.mk_mem_zipIdx_iff_getElem?, List.getElem?_eq_getElem hn', he']
      · beta_reduce
        rw [hnF 0 (by rw [hx]; omega)]
    have hl := hrows.length_eq
    have := List.length_pos_of_mem hmem
    rw [← hl] at this
    simp at this
  | cons q l =>
    obtain ⟨syms, hsy, hq⟩ := forall₂_mem_left hrows q List.mem_cons_self
    have hlen : syms.length = n := by
      obtain ⟨b, -, hsy⟩ := List.mem_flatMap.1 hsy
      obtain ⟨j, -, s, hs, rfl⟩ := mem_thetaRows hsy
      rw [hnF s hs]; simp [blk]
    rw [List.map_cons]
    refine write_wrong ?_ ?_ ?_
    · intro i hi'
      rw [hD.guess, List.length_map]
      exact hq.1.lt i hi'
    · rw [List.length_map, List.length_range, hq.1.length, hlen]
      omega
    · rw [List.length_map, List.length_range]
      omega

/-- The hypotheses are met: the two-system problem in Stewart mode. -/
example : ∃ po m oc P S, Setup oneColloc twoStewartOpts twoModel (some UserOcp.trivial) po m oc P ∧
    Reachable oneColloc twoStewartOpts twoModel (some UserOcp.trivial) echoOracle S ∧
    Ready twoModel S ∧ twoStewartOpts.pss = .stewart ∧
    twoStewartOpts.nfeAfter.length = twoStewartOpts.nStages ∧
    (∀ s < twoModel.nSys, (twoModel.Fmat s).nCols = 2) ∧ 2 ≤ twoModel.nSys := by
  obtain ⟨po, m, oc, P, h, -⟩ := two_stewart_setup
  obtain ⟨-, hS, hr⟩ := h.toSetup.create echoOracle (by simp [twoStewartOpts, Opts.default])
  refine ⟨po, m, oc, P, _, h.toSetup, hS, hr, rfl, rfl, fun s hs => ?_, le_rfl⟩
  have : twoModel.nSys = 2 := rfl
  obtain rfl | rfl : s = 0 ∨ s = 1 := by omega
  · rfl
  · rfl

/-- The theorems about states, controls and global variables apply to the demo problem. -/
example : ∃ po m oc P S, Setup demoColloc Opts.default demoModel (some demoOcp) po m oc P ∧
    Reachable demoColloc Opts.default demoModel (some demoOcp) echoOracle S ∧ Ready demoModel S ∧
    0 < demoModel.nX ∧ 0 < demoModel.nU ∧ 0 < demoModel.nV := by
  obtain ⟨po, m, oc, P, h, -⟩ := demo_setup demo_default
  obtain ⟨-, h2, h3⟩ := h.toSetup.create echoOracle (by simp [Opts.default])
  exact ⟨po, m, oc, P, _, h.toSetup, h2, h3, Nat.one_pos, Nat.one_pos, Nat.one_pos⟩

end
end Nosnoc
