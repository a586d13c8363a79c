import Verif.Spec.Polish
import Verif.Proofs.SolveRun
import Verif.Proofs.InitGuess
import Verif.Proofs.OptsEq
/-
Helper lemmas: which positions polishing may fix, and when it runs.
-/
namespace Nosnoc

section
variable {colloc : IrkScheme → Nat → List ℝ} {o : Opts} {um : UserModel} {uo : Option UserOcp}
  {po : PreOpts} {m : PreModel} {oc : PreOcp} {P : Problem} {orc : Oracle} {S S1 : Solver}
  {lam00 : List ℝ}

theorem Names.right {w : List Sym} {ix : List Nat} {syms : List Sym} (h : Names w ix syms)
    {i : Nat} (hi : i ∈ ix) : ∃ s ∈ syms, w[i]? = some s := forall₂_mem_left h i hi

theorem Names.left {w : List Sym} {ix : List Nat} {syms : List Sym} (h : Names w ix syms)
    {s : Sym} (hs : s ∈ syms) : ∃ i ∈ ix, w[i]? = some s := by
  induction h with
  | nil => cases hs
  | cons h1 _ ih =>
    rcases List.mem_cons.1 hs with rfl | hs
    · exact ⟨_, List.mem_cons_self, h1⟩
    · obtain ⟨i, hi, h2⟩ := ih hs
      exact ⟨i, List.mem_cons_of_mem _ hi, h2⟩

theorem Names.mem_iff {w : List Sym} (hd : w.Nodup) {ix : List Nat} {syms : List Sym}
    (h : Names w ix syms) {i : Nat} {t : Sym} (ht : w[i]? = some t) : i ∈ ix ↔ t ∈ syms := by
  constructor
  · intro hi
    obtain ⟨s, hs, h1⟩ := h.right hi
    rw [ht] at h1; cases h1; exact hs
  · intro hs
    obtain ⟨j, hj, h1⟩ := h.left hs
    obtain ⟨l1, e1⟩ := List.getElem?_eq_some_iff.1 ht
    obtain ⟨l2, e2⟩ := List.getElem?_eq_some_iff.1 h1
    have : i = j := (List.Nodup.getElem_inj_iff hd).1 (e1.trans e2.symm)
    rw [this]; exact hj

theorem Names.flatMap {α β : Type} {w : List Sym} {R : α → β → Prop} {l : List α} {l' : List β}
    {f : α → List Nat} {g : β → List Sym} (h : List.Forall₂ R l l')
    (hf : ∀ a b, R a b → Names w (f a) (g b)) : Names w (l.flatMap f) (l'.flatMap g) :=
  forall₂_flatMap h hf

/-- The finite elements with their names. -/
theorem IndexSpec.flat {d : Dims} (h : IndexSpec po d P) :
    List.Forall₂ (fun fi (q : Nat × Nat) => FENames po d P.form.w q.1 q.2 fi) P.idx.flatten
      ((List.range po.nStages).flatMap fun k => (List.range (nfe po k)).map fun e => (k, e)) := by
  have := forall₂_flatMap (Q := fun fi (q : Nat × Nat) => FENames po d P.form.w q.1 q.2 fi)
    (f := id) (g := fun k => (List.range (nfe po k)).map fun e => (k, e)) h.fe (by
      intro row k hr
      rw [List.forall₂_map_right_iff]
      exact hr)
  rw [List.flatMap_id] at this
  exact this

/-- Names of `ind_dont_set`. -/
def keepSyms (o : PreOpts) (d : Dims) : List Sym :=
  let fes := (List.range o.nStages).flatMap fun k => (List.range (nfe o k)).map fun e => (k, e)
  fes.flatMap (fun q => if o.useFesd then [.h q.1 q.2] else [])
    ++ ((List.range o.nStages).map fun k => blk d.nU (.u k)).flatten
    ++ fes.flatMap (fun q => (xRows o d q.1 q.2).flatten ++ (vRows o d q.1 q.2).flatten
        ++ (zRows o d q.1 q.2).flatten)
    ++ blk d.nV .vGlob
    ++ (if o.mpcc = .elasticIneq ∨ o.mpcc = .elasticEq ∨ o.mpcc = .elasticTwoSided
      then [.sElastic] else [])

/-- Names of `ind_set`. -/
def setSyms (o : PreOpts) (d : Dims) : List Sym :=
  let fes := (List.range o.nStages).flatMap fun k => (List.range (nfe o k)).map fun e => (k, e)
  fes.flatMap fun q =>
    (famRows d (nLamPts o q.1 q.2) (fun s => if o.pss = .stewart then d.nF s else 0)
      .lam q.1 q.2).flatten.flatten
    ++ (famRows d (nLamPts o q.1 q.2) (fun s => if o.pss = .step then d.nC s else 0)
      .lamN q.1 q.2).flatten.flatten
    ++ (famRows d (nLamPts o q.1 q.2) (fun s => if o.pss = .step then d.nC s else 0)
      .lamP q.1 q.2).flatten.flatten
    ++ (famRows d o.nS (fun s => if o.pss = .step then d.nC s else 0) .alpha q.1 q.2).flatten.flatten
    ++ (famRows d o.nS (fun s => if o.pss = .stewart then d.nF s else 0)
      .theta q.1 q.2).flatten.flatten
    ++ (famRows d (nLamPts o q.1 q.2) (fun _ => if o.pss = .stewart then 1 else 0)
      .mu q.1 q.2).flatten.flatten

theorem Names.flatten2 {w : List Sym} {ix : List (List (List Nat))} {s : List (List (List Sym))}
    (h : List.Forall₂ (List.Forall₂ (Names w)) ix s) :
    Names w ix.flatten.flatten s.flatten.flatten := by
  apply Names.flatten
  induction h with
  | nil => exact .nil
  | cons h1 _ ih => exact List.rel_append h1 ih

theorem keep_names (h : Setup colloc o um uo po m oc P) :
    Names P.form.w P.polishKeep (keepSyms po m.dims) := by
  have hS := C02_index_lists_name h
  unfold Problem.polishKeep keepSyms
  refine ((((Names.flatMap hS.flat fun fi q hq => hq.h).append (Names.flatten hS.u)).append
    (Names.flatMap hS.flat fun fi q hq => ?_)).append ?_).append ?_
  · simp only [List.flatMap_cons, List.flatMap_nil, List.append_nil]
    rw [← List.append_assoc]
    exact ((Names.flatten hq.x).append (Names.flatten hq.v)).append (Names.flatten hq.z)
  · have := Names.flatten hS.vGlobal
    simpa using this
  · have := Names.flatten hS.elastic
    split at this
    · rename_i hc; rw [if_pos hc]; simpa using this
    · rename_i hc; rw [if_neg hc]; simpa using this

theorem set_names (h : Setup colloc o um uo po m oc P) :
    Names P.form.w P.polishSet (setSyms po m.dims) := by
  have hS := C02_index_lists_name h
  unfold Problem.polishSet setSyms
  refine Names.flatMap hS.flat fun fi q hq => ?_
  simp only [List.flatMap_cons, List.flatMap_nil, List.append_nil]
  simp only [← List.append_assoc]
  exact (((((Names.flatten2 hq.lam).append (Names.flatten2 hq.lamN)).append
    (Names.flatten2 hq.lamP)).append (Names.flatten2 hq.alpha)).append
    (Names.flatten2 hq.theta)).append (Names.flatten2 hq.mu)

theorem mem_fes {q : Nat × Nat} : q ∈ ((List.range po.nStages).flatMap fun k =>
    (List.range (nfe po k)).map fun e => (k, e)) ↔ HasFE po q.1 q.2 := by
  obtain ⟨k, e⟩ := q
  simp [HasFE]

theorem mem_famRows {d : Dims} {pts : Nat} {len : Nat → Nat} {f : Fam2} {k e : Nat} {t : Sym} :
    t ∈ (famRows d pts len f k e).flatten.flatten ↔
      ∃ j < pts, ∃ s < d.nSys, ∃ i < len s, t = .st2 f k e j s i := by
  simp only [famRows, List.mem_flatten, List.mem_map, List.mem_range]
  constructor
  · rintro ⟨r, ⟨rr, ⟨j, hj, rfl⟩, hr⟩, ht⟩
    obtain ⟨s, hs, rfl⟩ := List.mem_map.1 hr
    obtain ⟨i, hi, rfl⟩ := mem_blk.1 ht
    exact ⟨j, hj, s, List.mem_range.1 hs, i, hi, rfl⟩
  · rintro ⟨j, hj, s, hs, i, hi, rfl⟩
    exact ⟨blk (len s) (.st2 f k e j s), ⟨_, ⟨j, hj, rfl⟩,
      List.mem_map.2 ⟨s, List.mem_range.2 hs, rfl⟩⟩, mem_blk.2 ⟨i, hi, rfl⟩⟩

theorem mem_setSyms {d : Dims} {t : Sym} (hv : IsVar po d t) : t ∈ setSyms po d ↔ IsMultiplier t := by
  unfold setSyms
  dsimp only
  rw [List.mem_flatMap]
  simp only [List.mem_append, mem_famRows]
  constructor
  · rintro ⟨q, -, ((((h | h) | h) | h) | h) | h⟩ <;>
    · obtain ⟨j, -, s, -, i, -, rfl⟩ := h
      exact trivial
  · intro ht
    cases t with
    | st2 f k e j s i =>
      refine ⟨(k, e), mem_fes.2 ?_, ?_⟩
      · cases f <;> exact hv.2.1
      · cases f with
        | lam => exact .inl (.inl (.inl (.inl (.inl ⟨j, hv.2.2.1, s, hv.2.2.2.1, i, by
            rw [if_pos hv.1]; exact hv.2.2.2.2, rfl⟩))))
        | lamN => exact .inl (.inl (.inl (.inl (.inr ⟨j, hv.2.2.1, s, hv.2.2.2.1, i, by
            rw [if_pos hv.1]; exact hv.2.2.2.2, rfl⟩))))
        | lamP => exact .inl (.inl (.inl (.inr ⟨j, hv.2.2.1, s, hv.2.2.2.1, i, by
            rw [if_pos hv.1]; exact hv.2.2.2.2, rfl⟩)))
        | alpha => exact .inl (.inl (.inr ⟨j, hv.2.2.1, s, hv.2.2.2.1, i, by
            rw [if_pos hv.1]; exact hv.2.2.2.2, rfl⟩))
        | theta => exact .inl (.inr ⟨j, hv.2.2.1, s, hv.2.2.2.1, i, by
            rw [if_pos hv.1]; exact hv.2.2.2.2, rfl⟩)
        | mu => exact .inr ⟨j, hv.2.2.1, s, hv.2.2.2.1, i, by
            rw [if_pos hv.1, hv.2.2.2.2]; exact Nat.one_pos, rfl⟩
    | _ => exact ht.elim

theorem keepSyms_primal {d : Dims} {t : Sym} (h : t ∈ keepSyms po d) : IsPrimal t := by
  unfold keepSyms at h
  simp only [List.mem_append, List.mem_flatMap, List.mem_flatten, List.mem_map] at h
  rcases h with (((⟨q, -, h⟩ | ⟨l, ⟨k, -, rfl⟩, h⟩) | ⟨q, -, (⟨l, hl, h⟩ | ⟨l, hl, h⟩) | ⟨l, hl, h⟩⟩) | h) | h
  · split at h
    · rw [List.mem_singleton.1 h]; exact trivial
    · cases h
  · obtain ⟨i, -, rfl⟩ := mem_blk.1 h; exact trivial
  · rcases xRows_mem hl with ⟨j, rfl⟩ | rfl <;>
    · obtain ⟨i, -, rfl⟩ := mem_blk.1 h; exact trivial
  · obtain ⟨j, -, rfl⟩ := List.mem_map.1 hl
    split at h
    · cases h
    · obtain ⟨i, -, rfl⟩ := mem_blk.1 h; exact trivial
  · obtain ⟨j, -, rfl⟩ := List.mem_map.1 hl
    obtain ⟨i, -, rfl⟩ := mem_blk.1 h; exact trivial
  · obtain ⟨i, -, rfl⟩ := mem_blk.1 h; exact trivial
  · split at h
    · rw [List.mem_singleton.1 h]; exact trivial
    · cases h

theorem mem_keepSyms {d : Dims} {t : Sym} (hv : IsVar po d t) : t ∈ keepSyms po d ↔ IsPrimal t := by
  refine ⟨keepSyms_primal, fun ht => ?_⟩
  unfold keepSyms
  simp only [List.mem_append, List.mem_flatMap, List.mem_flatten, List.mem_map]
  cases t with
  | h k e =>
    exact .inl (.inl (.inl (.inl ⟨(k, e), by
      obtain ⟨a, b⟩ := hv.2; exact ⟨k, List.mem_range.2 a, e, List.mem_range.2 b, rfl⟩,
      by rw [if_pos hv.1]; exact List.mem_singleton.2 rfl⟩)))
  | u k i => exact .inl (.inl (.inl (.inr ⟨_, ⟨k, List.mem_range.2 hv.1, rfl⟩,
      mem_blk.2 ⟨i, hv.2, rfl⟩⟩)))
  | st1 f k e j i =>
    have hfe : HasFE po k e := by
      cases f
      · exact hv.2.1
      · exact hv.2.1
      · exact hv.1
    refine .inl (.inl (.inr ⟨(k, e), ⟨k, List.mem_range.2 hfe.1, e, List.mem_range.2 hfe.2, rfl⟩, ?_⟩))
    cases f with
    | x =>
      refine .inl (.inl ⟨blk d.nX (.st1 .x k e j), ?_, mem_blk.2 ⟨i, hv.2.2.2, rfl⟩⟩)
      unfold xRows
      rw [if_neg hv.1]
      exact List.mem_append.2 (.inl (List.mem_map.2 ⟨j, List.mem_range.2 hv.2.2.1, rfl⟩))
    | v =>
      refine .inl (.inr ⟨blk d.nX (.st1 .v k e j), ?_, mem_blk.2 ⟨i, hv.2.2.2, rfl⟩⟩)
      exact List.mem_map.2 ⟨j, List.mem_range.2 hv.2.2.1, by rw [if_neg hv.1]⟩
    | z =>
      refine .inr ⟨blk d.nZ (.st1 .z k e j), ?_, mem_blk.2 ⟨i, hv.2.2, rfl⟩⟩
      exact List.mem_map.2 ⟨j, List.mem_range.2 hv.2.1, rfl⟩
  | xEnd k e i =>
    refine .inl (.inl (.inr ⟨(k, e),
      ⟨k, List.mem_range.2 hv.2.1.1, e, List.mem_range.2 hv.2.1.2, rfl⟩, .inl (.inl
      ⟨blk d.nX (.xEnd k e), ?_, mem_blk.2 ⟨i, hv.2.2, rfl⟩⟩)⟩))
    unfold xRows
    rw [if_pos hv.1]
    exact List.mem_append.2 (.inr (List.mem_singleton.2 rfl))
  | vGlob i => exact .inl (.inr (mem_blk.2 ⟨i, hv, rfl⟩))
  | sElastic => exact .inr (by rw [if_pos (show _ ∨ _ from hv)]; exact List.mem_singleton.2 rfl)
  | _ => exact ht.elim

/-- Every position that may be fixed by polishing or not, by its variable. -/
theorem pos_keep (h : Setup colloc o um uo po m oc P) {i : Nat} {t : Sym}
    (ht : P.form.w[i]? = some t) : i ∈ P.polishKeep ↔ IsPrimal t := by
  rw [(keep_names h).mem_iff (C01_index_lists_partition h).2 ht]
  rcases (C04_variables h t).2 (List.mem_of_getElem? ht) with hv | ⟨-, ⟨k, e, j, rfl⟩ | ⟨j, rfl⟩⟩
  · exact mem_keepSyms hv
  · exact ⟨keepSyms_primal, fun hp => hp.elim⟩
  · exact ⟨keepSyms_primal, fun hp => hp.elim⟩

theorem pos_set (h : Setup colloc o um uo po m oc P) {i : Nat} {t : Sym}
    (ht : P.form.w[i]? = some t) : i ∈ P.polishSet ↔ IsMultiplier t := by
  rw [(set_names h).mem_iff (C01_index_lists_partition h).2 ht]
  have hm : t ∈ setSyms po m.dims → IsMultiplier t := by
    unfold setSyms
    simp only [List.mem_flatMap, List.mem_append, mem_famRows]
    rintro ⟨q, -, ((((h | h) | h) | h) | h) | h⟩ <;>
    · obtain ⟨j, -, s, -, i, -, rfl⟩ := h
      exact trivial
  rcases (C04_variables h t).2 (List.mem_of_getElem? ht) with hv | ⟨-, ⟨k, e, j, rfl⟩ | ⟨j, rfl⟩⟩
  · exact mem_setSyms hv
  · exact ⟨hm, fun hp => hp.elim⟩
  · exact ⟨hm, fun hp => hp.elim⟩

/-- The sanity check of polishing. -/
theorem polish_check (h : Setup colloc o um uo po m oc P) (hi : Inv po m P S) {w : List ℝ}
    (hw : w.length = P.form.w.length) :
    (∀ iw < w.length, iw ∈ S.P.polishSet ++ S.P.polishKeep) ↔
      ∀ t ∈ P.form.w, IsMultiplier t ∨ IsPrimal t := by
  have e1 : S.P.polishSet = P.polishSet := by unfold Problem.polishSet; rw [hi.idx]
  have e2 : S.P.polishKeep = P.polishKeep := by rw [hi.prob]; rfl
  rw [e1, e2, hw]
  constructor
  · intro hc t ht
    obtain ⟨i, hlt, rfl⟩ := List.getElem_of_mem ht
    have hget := List.getElem?_eq_getElem hlt
    rcases List.mem_append.1 (hc i hlt) with h1 | h1
    · exact .inl ((pos_set h hget).1 h1)
    · exact .inr ((pos_keep h hget).1 h1)
  · intro hc i hlt
    have hget := List.getElem?_eq_getElem hlt
    rcases hc _ (List.getElem_mem hlt) with h1 | h1
    · exact List.mem_append.2 (.inl ((pos_set h hget).2 h1))
    · exact List.mem_append.2 (.inr ((pos_keep h hget).2 h1))

theorem mem_fixPos {w : List ℝ} {keep : List Nat} {cond : ℝ → Prop} [DecidablePred cond] {i : Nat} :
    i ∈ fixPos w keep cond ↔ ∃ v, w[i]? = some v ∧ cond v ∧ i ∉ keep := by
  unfold fixPos
  simp only [List.mem_filterMap]
  constructor
  · rintro ⟨⟨v, j⟩, hm, h1⟩
    split at h1
    · rename_i hc
      cases h1
      exact ⟨v, List.mk_mem_zipIdx_iff_getElem?.1 hm, hc⟩
    · cases h1
  · rintro ⟨v, h1, h2⟩
    exact ⟨(v, i), List.mk_mem_zipIdx_iff_getElem?.2 h1, if_pos h2⟩

theorem setBounds_getElem? (a : EReal) (ix : List Nat) (l : List EReal) (i : Nat) :
    (setBounds l ix a)[i]? = if i ∈ ix ∧ i < l.length then some a else l[i]? := by
  unfold setBounds
  induction ix generalizing l with
  | nil => simp
  | cons j ix ih =>
    rw [List.foldl_cons, ih, List.length_set, List.getElem?_set]
    by_cases hlt : i < l.length
    · by_cases hm : i ∈ ix
      · simp [hm, hlt]
      · by_cases hj : j = i
        · subst hj; simp [hm, hlt]
        · have : i ∉ j :: ix := by
            intro hc
            rcases List.mem_cons.1 hc with rfl | hc
            · exact hj rfl
            · exact hm hc
          rw [if_neg (fun hc => hm hc.1), if_neg hj, if_neg (fun hc => this hc.1)]
    · rw [if_neg (fun hc => hlt hc.2), if_neg (fun hc : i ∈ j :: ix ∧ _ => hlt hc.2)]
      by_cases hj : j = i
      · subst hj; rw [if_pos rfl, if_neg hlt, List.getElem?_eq_none (by omega)]
      · rw [if_neg hj]

theorem setBounds_length (a : EReal) (ix : List Nat) (l : List EReal) :
    (setBounds l ix a).length = l.length := by
  unfold setBounds
  induction ix generalizing l with
  | nil => rfl
  | cons j ix ih => rw [List.foldl_cons, ih, List.length_set]

/-- The polishing NLP is as specified. -/
theorem polishCall_spec (h : Setup colloc o um uo po m oc P) (hi : Inv po m P S) {w : List ℝ}
    (hc : ∀ t ∈ P.form.w, IsMultiplier t ∨ IsPrimal t) :
    PolishCall S lam00 w (polishCall S lam00 w) := by
  have e2 : S.P.polishKeep = P.polishKeep := by rw [hi.prob]; rfl
  obtain ⟨b1, b2, -⟩ := C04_bounds_and_guess h
  have l1 : S.P.form.lbw.length = P.form.w.length := by rw [hi.lbw, b1, List.length_map]
  have l2 : S.P.form.ubw.length = P.form.w.length := by rw [hi.ubw, b2, List.length_map]
  have hmult : ∀ {i : Nat} {t}, S.P.form.w[i]? = some t → (i ∉ S.P.polishKeep ↔ IsMultiplier t) := by
    intro i t ht
    rw [hi.w] at ht
    rw [e2, pos_keep h ht]
    rcases hc t (List.mem_of_getElem? ht) with h1 | h1
    · exact ⟨fun _ => h1, fun _ hp => by cases t <;> first | exact hp.elim | exact h1.elim⟩
    · exact ⟨fun hn => absurd h1 hn, fun hm hp => by cases t <;> first | exact hp.elim | exact hm.elim⟩
  have hlt : ∀ {i : Nat} {t}, S.P.form.w[i]? = some t → i < P.form.w.length := by
    intro i t ht
    rw [hi.w] at ht
    exact (List.getElem?_eq_some_iff.1 ht).1
  refine ⟨rfl, ⟨rfl, rfl⟩, rfl, ⟨?_, ?_⟩, ?_, ?_, ?_, ?_⟩
  · show (polishBounds S w).lbw.length = _
    simp only [polishBounds, setBounds_length, l1, hi.w]
  · show (polishBounds S w).ubw.length = _
    simp only [polishBounds, setBounds_length, l2, hi.w]
  all_goals
    show ∀ _, _
  · intro i t ht hnm
    have hk : ∀ (cond : ℝ → Prop) [DecidablePred cond], i ∉ fixPos w S.P.polishKeep cond := by
      intro cond _ hm
      obtain ⟨v, -, -, hk⟩ := mem_fixPos.1 hm
      exact hnm ((hmult ht).1 hk)
    show (polishBounds S w).lbw[i]? = _ ∧ (polishBounds S w).ubw[i]? = _
    simp only [polishBounds, setBounds_getElem?, hk, false_and, if_false, and_self]
  · intro i t v ht hm hv hc1
    have h1 : i ∈ fixPos w S.P.polishKeep fun v => |v - 1| < 10 * S.o.compTol :=
      mem_fixPos.2 ⟨v, hv, hc1, (hmult ht).2 hm⟩
    show (polishBounds S w).lbw[i]? = _ ∧ (polishBounds S w).ubw[i]? = _
    simp only [polishBounds, setBounds_getElem?, setBounds_length, h1, true_and, l1, l2]
    rw [if_pos (hlt ht), if_pos (hlt ht)]
    exact ⟨rfl, rfl⟩
  · intro i t v ht hm hv hc1 hc0
    have h1 : i ∉ fixPos w S.P.polishKeep fun v => |v - 1| < 10 * S.o.compTol := by
      intro hmm
      obtain ⟨v', hv', hc', -⟩ := mem_fixPos.1 hmm
      rw [hv] at hv'; cases hv'
      exact absurd hc' (not_lt.2 hc1)
    have h0 : i ∈ fixPos w S.P.polishKeep fun v => v < 10 * S.o.compTol :=
      mem_fixPos.2 ⟨v, hv, hc0, (hmult ht).2 hm⟩
    show (polishBounds S w).lbw[i]? = _ ∧ (polishBounds S w).ubw[i]? = _
    simp only [polishBounds, setBounds_getElem?, h1, h0, true_and, false_and, if_false, l1, l2]
    rw [if_pos (hlt ht), if_pos (hlt ht)]
    exact ⟨rfl, rfl⟩
  · intro i t v ht hm hv hc1 hc0
    have h1 : i ∉ fixPos w S.P.polishKeep fun v => |v - 1| < 10 * S.o.compTol := by
      intro hmm
      obtain ⟨v', hv', hc', -⟩ := mem_fixPos.1 hmm
      rw [hv] at hv'; cases hv'
      exact absurd hc' (not_lt.2 hc1)
    have h0 : i ∉ fixPos w S.P.polishKeep fun v => v < 10 * S.o.compTol := by
      intro hmm
      obtain ⟨v', hv', hc', -⟩ := mem_fixPos.1 hmm
      rw [hv] at hv'; cases hv'
      exact absurd hc' (not_lt.2 hc0)
    show (polishBounds S w).lbw[i]? = _ ∧ (polishBounds S w).ubw[i]? = _
    simp only [polishBounds, setBounds_getElem?, h1, h0, false_and, if_false, and_self]

theorem sameLen_iff {α : Type} {ls : List (List α)} :
    sameLen ls = true ↔ ∀ a ∈ ls, ∀ b ∈ ls, a.length = b.length := by
  unfold sameLen
  simp [List.all_eq_true]

/-- When the polishing loop runs. -/
theorem polishLoop_iff (h : Setup colloc o um uo po m oc P) (hi : Inv po m P S) (call : NlpCall)
    {ks : List Nat} (hks : ∀ k ∈ ks, k < po.nStages) (hne : ks ≠ []) (log : List NlpCall)
    (last : Option NlpSol) :
    (∃ q, polishLoop orc S call ks log last = .ok q) ↔
      (po.pss = .stewart → ∀ s < um.nSys, ∀ s' < um.nSys,
        (um.Fmat s).nCols = (um.Fmat s').nCols) := by
  obtain ⟨-, -, -, -, -, -, d7, d8, -⟩ := h.dims
  have hN := C02_index_lists_name h
  have hpr := h.built.ok.primal
  -- one stage
  have body : ∀ k < po.nStages, ∃ row n, listGet S.P.idx k = .ok row ∧ listGet S.o.nfeList k = .ok n ∧
      ((∃ r, (List.range n).mapM (fun e => do
        let fi ← listGet row e
        check (sameLen (fi.two .theta) = true) .valueError
        listIndex2 (fi.two .theta).flatten) = .ok r) ↔
      (po.pss = .stewart → ∀ s < um.nSys, ∀ s' < um.nSys,
        (um.Fmat s).nCols = (um.Fmat s').nCols)) := by
    intro k hk
    obtain ⟨row, h1, hrow⟩ := forall₂_range_get hN.fe hk
    obtain ⟨n0, hn1, hn2⟩ : ∃ n, po.nfeList[k]? = some n ∧ nfe po k = n := by
      have hlt := (hpr.nfe k hk).1
      refine ⟨po.nfeList[k], List.getElem?_eq_getElem hlt, ?_⟩
      unfold nfe
      rw [List.getD_eq_getElem?_getD, List.getElem?_eq_getElem hlt]; rfl
    have hn3 : 0 < n0 := by rw [← hn2]; exact (hpr.nfe k hk).2
    refine ⟨row, n0, listGet_eq_ok.2 (by rw [hi.idx]; exact h1),
      listGet_eq_ok.2 (by rw [hi.opts]; exact hn1), ?_⟩
    rw [hn2] at hrow
    -- one element
    have elem : ∀ e < n0, ∃ fi, row[e]? = some fi ∧ sameLen (fi.two .theta) = true ∧
        (sameLen (fi.two .theta).flatten = true ↔ (po.pss = .stewart → ∀ s < um.nSys,
          ∀ s' < um.nSys, (um.Fmat s).nCols = (um.Fmat s').nCols)) := by
      intro e he
      obtain ⟨fi, h2, hfi⟩ := forall₂_range_get hrow he
      have hth := hfi.theta
      refine ⟨fi, h2, ?_, ?_⟩
      · apply sameLen_of (n := m.dims.nSys)
        intro l hl
        obtain ⟨b, hb, hr⟩ := forall₂_mem_left hth l hl
        obtain ⟨j, -, rfl⟩ := List.mem_map.1 hb
        rw [hr.length_eq]; simp
      · rw [sameLen_iff]
        -- the lengths of the index lists
        have hnS : 0 < po.nS := by rw [h.e_nS]; exact h.nS
        have hlen : ∀ n : Nat, (∃ l ∈ (fi.two .theta).flatten, l.length = n) ↔
            ∃ s < um.nSys, (if po.pss = .stewart then m.dims.nF s else 0) = n := by
          intro n
          constructor
          · rintro ⟨l, hl, rfl⟩
            obtain ⟨r, hr, hl⟩ := List.mem_flatten.1 hl
            obtain ⟨b, hb, hrb⟩ := forall₂_mem_left hth r hr
            obtain ⟨j, -, rfl⟩ := List.mem_map.1 hb
            obtain ⟨c, hc, hlc⟩ := forall₂_mem_left hrb l hl
            obtain ⟨s, hs, rfl⟩ := List.mem_map.1 hc
            refine ⟨s, by rw [← d7]; exact List.mem_range.1 hs, ?_⟩
            rw [hlc.length]; simp [blk]
          · rintro ⟨s, hs, rfl⟩
            obtain ⟨r, hr, hrb⟩ := forall₂_map_get hth hnS
            obtain ⟨l, hl, hlc⟩ := forall₂_map_get hrb (k := s) (by rw [d7]; exact hs)
            refine ⟨l, List.mem_flatten.2 ⟨r, List.mem_of_getElem? hr, List.mem_of_getElem? hl⟩, ?_⟩
            rw [hlc.length]; simp [blk]
        constructor
        · intro hc hst s hs s' hs'
          obtain ⟨l, hl, e1⟩ := (hlen (m.dims.nF s)).2 ⟨s, hs, if_pos hst⟩
          obtain ⟨l', hl', e2⟩ := (hlen (m.dims.nF s')).2 ⟨s', hs', if_pos hst⟩
          have := hc l hl l' hl'
          rw [e1, e2, d8 hst s hs, d8 hst s' hs'] at this
          exact this
        · intro hc a ha b hb
          obtain ⟨s, hs, e1⟩ := (hlen a.length).1 ⟨a, ha, rfl⟩
          obtain ⟨s', hs', e2⟩ := (hlen b.length).1 ⟨b, hb, rfl⟩
          rw [← e1, ← e2]
          by_cases hst : po.pss = .stewart
          · rw [if_pos hst, if_pos hst, d8 hst s hs, d8 hst s' hs']
            exact hc hst s hs s' hs'
          · rw [if_neg hst, if_neg hst]
    constructor
    · rintro ⟨r, hr⟩
      rw [mapM_eq_ok] at hr
      obtain ⟨b, -, hb⟩ := forall₂_mem_left hr 0 (List.mem_range.2 hn3)
      obtain ⟨fi, h1, h2, h3⟩ := elem 0 hn3
      simp only [bind_eq_ok] at hb
      obtain ⟨fi', hf', _, -, hb⟩ := hb
      rw [listGet_eq_ok.2 h1] at hf'
      cases hf'
      unfold listIndex2 at hb
      split at hb
      · cases hb
      · rename_i hne
        exact h3.1 (by simpa using hne)
    · intro hc
      have : ∀ e ∈ List.range n0, ∃ r, (do
          let fi ← listGet row e
          check (sameLen (fi.two .theta) = true) .valueError
          listIndex2 (fi.two .theta).flatten) = .ok r := by
        intro e he
        obtain ⟨fi, h1, h2, h3⟩ := elem e (List.mem_range.1 he)
        refine ⟨(fi.two .theta).flatten, ?_⟩
        rw [listGet_eq_ok.2 h1]
        show (do
          check (sameLen (fi.two .theta) = true) .valueError
          listIndex2 (fi.two .theta).flatten) = _
        rw [check, if_pos h2]
        show listIndex2 _ = _
        unfold listIndex2
        rw [if_neg (by simp [h3.2 hc])]
      obtain ⟨r, hr⟩ : ∃ r, List.Forall₂ (fun e r => (do
          let fi ← listGet row e
          check (sameLen (fi.two .theta) = true) .valueError
          listIndex2 (fi.two .theta).flatten) = .ok r) (List.range n0) r := by
        generalize List.range n0 = l at this
        induction l with
        | nil => exact ⟨[], .nil⟩
        | cons a l ih =>
          obtain ⟨r, hr⟩ := this a List.mem_cons_self
          obtain ⟨rs, hrs⟩ := ih fun b hb => this b (List.mem_cons_of_mem _ hb)
          exact ⟨r :: rs, .cons hr hrs⟩
      exact ⟨r, mapM_eq_ok.2 hr⟩
  -- the loop
  induction ks generalizing log last with
  | nil => exact absurd rfl hne
  | cons k ks ih =>
    obtain ⟨row, n, h1, h2, h3⟩ := body k (hks k List.mem_cons_self)
    have hloop : ∀ r, (List.range n).mapM (fun e => do
        let fi ← listGet row e
        check (sameLen (fi.two .theta) = true) .valueError
        listIndex2 (fi.two .theta).flatten) = r →
        polishLoop orc S call (k :: ks) log last = match r with
          | .ok _ => polishLoop orc S call ks (log ++ [call]) (some (orc.sol (log ++ [call])))
          | .error e => .error e := by
      intro r hr
      rw [polishLoop, h1]
      show (do
        let n ← listGet S.o.nfeList k
        let _ ← (List.range n).mapM fun e => do
          let fi ← listGet row e
          check (sameLen (fi.two .theta) = true) .valueError
          listIndex2 (fi.two .theta).flatten
        polishLoop orc S call ks (log ++ [call]) (some (orc.sol (log ++ [call])))) = _
      rw [h2]
      show (do
        let _ ← (List.range n).mapM fun e => do
          let fi ← listGet row e
          check (sameLen (fi.two .theta) = true) .valueError
          listIndex2 (fi.two .theta).flatten
        polishLoop orc S call ks (log ++ [call]) (some (orc.sol (log ++ [call])))) = _
      rw [hr]
      cases r <;> rfl
    cases hr : (List.range n).mapM (fun e => do
        let fi ← listGet row e
        check (sameLen (fi.two .theta) = true) .valueError
        listIndex2 (fi.two .theta).flatten) with
    | error e =>
      rw [hloop _ hr]
      dsimp only
      rw [hr] at h3
      refine ⟨fun ⟨q, hq⟩ => (by cases hq), fun hc => ?_⟩
      obtain ⟨r, hr'⟩ := h3.2 hc
      cases hr'
    | ok r =>
      rw [hloop _ hr]
      dsimp only
      rw [hr] at h3
      have hc := h3.1 ⟨r, rfl⟩
      by_cases hk : ks = []
      · subst hk
        exact ⟨fun _ => hc, fun _ => ⟨_, rfl⟩⟩
      · exact ih (fun k' hk' => hks k' (List.mem_cons_of_mem _ hk')) hk _ _

/-- When polishing runs. -/
theorem polish_iff (h : Setup colloc o um uo po m oc P) (hi : Inv po m P S) {w : List ℝ}
    (hw : w.length = P.form.w.length) (log : List NlpCall) :
    (∃ q, polish orc S lam00 w log = .ok q) ↔
      (∀ t ∈ P.form.w, IsMultiplier t ∨ IsPrimal t) ∧
      (po.pss = .stewart → ∀ s < um.nSys, ∀ s' < um.nSys,
        (um.Fmat s).nCols = (um.Fmat s').nCols) := by
  have hst : S.o.nStages = po.nStages := by rw [hi.opts]
  have hne : List.range S.o.nStages ≠ [] := by
    have := h.built.ok.primal.stages
    rw [hst]; simpa using this
  have hks : ∀ k ∈ List.range S.o.nStages, k < po.nStages := by
    intro k hk; rw [← hst]; exact List.mem_range.1 hk
  have hl := polishLoop_iff (orc := orc) h hi (polishCall S lam00 w) hks hne log none
  have hc := polish_check h hi hw
  constructor
  · rintro ⟨q, hq⟩
    unfold polish at hq
    simp only [bind_eq_ok, check_eq_ok] at hq
    obtain ⟨-, h1, q', h2, -⟩ := hq
    exact ⟨hc.1 h1, hl.1 ⟨q', h2⟩⟩
  · rintro ⟨h1, h2⟩
    obtain ⟨⟨log', last⟩, hq⟩ := hl.2 h2
    obtain ⟨-, -, h3⟩ := polishLoop_ok hq
    have h4 := h3 hne
    subst h4
    refine ⟨(log', orc.sol log'), ?_⟩
    unfold polish
    simp only [bind_eq_ok, check_eq_ok]
    exact ⟨(), hc.2 h1, _, hq, rfl⟩

end
end Nosnoc
