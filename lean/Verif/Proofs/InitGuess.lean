import Verif.Proofs.SolverObj
/-
Helper lemmas: the guess after `initialize`, and the values of lambda00.
-/
namespace Nosnoc

theorem map_getD_range (l : List ℝ) : (List.range l.length).map (fun i => l.getD i 0) = l := by
  apply List.ext_getElem
  · simp
  · intro i h1 h2
    simp [List.getD_eq_getElem?_getD, h2]

section
variable {colloc : IrkScheme → Nat → List ℝ} {o : Opts} {um : UserModel} {uo : Option UserOcp}
  {po : PreOpts} {m : PreModel} {oc : PreOcp} {P : Problem} {orc : Oracle} {S : Solver}

theorem sameLen_of {α : Type} {ls : List (List α)} {n : Nat} (h : ∀ l ∈ ls, l.length = n) :
    sameLen ls = true := by
  unfold sameLen
  rw [List.all_eq_true]
  intro a ha
  rw [List.all_eq_true]
  intro b hb
  simp [h a ha, h b hb]

theorem forall₂_mem_left {α β : Type} {R : α → β → Prop} {l : List α} {l' : List β}
    (h : List.Forall₂ R l l') : ∀ a ∈ l, ∃ b ∈ l', R a b := by
  induction h with
  | nil => simp
  | cons hr _ ih =>
    intro a ha
    rcases List.mem_cons.1 ha with rfl | ha
    · exact ⟨_, List.mem_cons_self, hr⟩
    · obtain ⟨b, hb, h⟩ := ih a ha
      exact ⟨b, List.mem_cons_of_mem _ hb, h⟩

theorem forall₂_flatMap {α β γ δ : Type} {R : α → β → Prop} {Q : γ → δ → Prop} {l : List α}
    {l' : List β} {f : α → List γ} {g : β → List δ} (h : List.Forall₂ R l l')
    (hf : ∀ a b, R a b → List.Forall₂ Q (f a) (g b)) :
    List.Forall₂ Q (l.flatMap f) (l'.flatMap g) := by
  induction h with
  | nil => exact .nil
  | cons hr _ ih =>
    rw [List.flatMap_cons, List.flatMap_cons]
    exact List.rel_append (hf _ _ hr) ih

/-- The state symbols of one control stage. -/
def stageStateRows (po : PreOpts) (d : Dims) (k : Nat) : List (List Sym) :=
  (List.range (nfe po k)).flatMap fun e => xRows po d k e

theorem xRows_mem {po : PreOpts} {d : Dims} {k e : Nat} {r : List Sym} (h : r ∈ xRows po d k e) :
    (∃ j, r = blk d.nX (.st1 .x k e j)) ∨ r = blk d.nX (.xEnd k e) := by
  unfold xRows at h
  rcases List.mem_append.1 h with h | h
  · split at h
    · cases h
    · obtain ⟨j, -, rfl⟩ := List.mem_map.1 h
      exact .inl ⟨j, rfl⟩
  · split at h
    · exact .inr (by simpa using h)
    · cases h

theorem xRows_ne_nil {po : PreOpts} {d : Dims} {k e : Nat} (hn : 0 < po.nS) :
    xRows po d k e ≠ [] := by
  unfold xRows
  by_cases hd : po.irkRep = .differential
  · have : ownEnd po = true := by simp [ownEnd, hd]
    simp [hd, this]
  · rw [if_neg hd]
    intro hc
    have := congrArg List.length hc
    rw [List.length_append, List.length_map, List.length_range] at this
    simp only [List.length_nil] at this
    omega

theorem xRows_map {po : PreOpts} {d : Dims} {k e : Nat} {x0 : List ℝ} (hx : x0.length = d.nX)
    {r : List Sym} (h : r ∈ xRows po d k e) :
    r.map (fun t => x0.getD ((stateIdx t).getD 0) 0) = x0 := by
  have key : ∀ f : Nat → Sym, (∀ i, stateIdx (f i) = some i) →
      (blk d.nX f).map (fun t => x0.getD ((stateIdx t).getD 0) 0) = x0 := by
    intro f hf
    unfold blk
    rw [List.map_map, ← hx]
    conv_rhs => rw [← map_getD_range x0]
    apply List.map_congr_left
    intro i _
    simp [hf]
  rcases xRows_mem h with ⟨j, rfl⟩ | rfl
  · exact key _ fun i => rfl
  · exact key _ fun i => rfl

theorem mem_stageStateRows {d : Dims} {ks : List Nat} {t : Sym} (hw : IsVar po d t)
    (hks : ∀ k < po.nStages, k ∈ ks) (ht : (stateIdx t).isSome = true) :
    t ∈ (ks.flatMap (stageStateRows po d)).flatten := by
  rw [List.mem_flatten]
  cases t with
  | st1 f k e j i =>
    cases f with
    | x =>
      obtain ⟨h1, h2, h3, h4⟩ := hw
      refine ⟨blk d.nX (.st1 .x k e j), ?_, List.mem_map.2 ⟨i, List.mem_range.2 h4, rfl⟩⟩
      refine List.mem_flatMap.2 ⟨k, hks k h2.1, List.mem_flatMap.2 ⟨e, List.mem_range.2 h2.2, ?_⟩⟩
      unfold xRows
      rw [if_neg h1]
      exact List.mem_append_left _ (List.mem_map.2 ⟨j, List.mem_range.2 h3, rfl⟩)
    | v => cases ht
    | z => cases ht
  | xEnd k e i =>
    obtain ⟨h1, h2, h4⟩ := hw
    refine ⟨blk d.nX (.xEnd k e), ?_, List.mem_map.2 ⟨i, List.mem_range.2 h4, rfl⟩⟩
    refine List.mem_flatMap.2 ⟨k, hks k h2.1, List.mem_flatMap.2 ⟨e, List.mem_range.2 h2.2, ?_⟩⟩
    unfold xRows
    rw [if_pos h1]
    exact List.mem_append_right _ (by simp)
  | _ => cases ht

theorem stateIdx_of_mem {d : Dims} {ks : List Nat} {t : Sym}
    (h : t ∈ (ks.flatMap (stageStateRows po d)).flatten) : (stateIdx t).isSome = true := by
  obtain ⟨r, hr, ht⟩ := List.mem_flatten.1 h
  obtain ⟨k, -, hr⟩ := List.mem_flatMap.1 hr
  obtain ⟨e, -, hr⟩ := List.mem_flatMap.1 hr
  rcases xRows_mem hr with ⟨j, rfl⟩ | rfl
  · obtain ⟨i, -, rfl⟩ := List.mem_map.1 ht; rfl
  · obtain ⟨i, -, rfl⟩ := List.mem_map.1 ht; rfl

theorem row_forall₂ {w : List Sym} {d : Dims} {k : Nat} {row : List FEIdx}
    (h : List.Forall₂ (fun fi e => FENames po d w k e fi) row (List.range (nfe po k))) :
    List.Forall₂ (Names w) (row.flatMap fun fi => fi.one .x) (stageStateRows po d k) :=
  forall₂_flatMap h fun _ _ hf => hf.x

theorem npIndex3_ok {w : List Sym} {d : Dims} {k : Nat} {row : List FEIdx} (hn : 0 < po.nS)
    (hk : 0 < nfe po k) (hx : 0 < d.nX)
    (h : List.Forall₂ (fun fi e => FENames po d w k e fi) row (List.range (nfe po k))) :
    npIndex3 (row.map fun fi => fi.one .x) = .ok (row.flatMap fun fi => fi.one .x) := by
  have h1 : sameLen (row.map fun fi => fi.one .x) = true := by
    apply sameLen_of (n := (xRows po d k 0).length)
    intro l hl
    obtain ⟨fi, hfi, rfl⟩ := List.mem_map.1 hl
    obtain ⟨e, -, hf⟩ := forall₂_mem_left h fi hfi
    rw [hf.x.length_eq]
    simp only [xRows, List.length_append]
    congr 1
    · split <;> simp
    · split <;> simp
  have hrow := row_forall₂ h
  have h2 : sameLen (row.flatMap fun fi => fi.one .x) = true := by
    apply sameLen_of (n := d.nX)
    intro l hl
    obtain ⟨r, hr, hnm⟩ := forall₂_mem_left hrow l hl
    rw [hnm.length]
    obtain ⟨e, -, hr⟩ := List.mem_flatMap.1 hr
    rcases xRows_mem hr with ⟨j, rfl⟩ | rfl <;> simp [blk]
  unfold npIndex3 npIndex2
  have e : (row.map fun fi => fi.one .x).flatten = row.flatMap fun fi => fi.one .x := rfl
  rw [h1, e, h2]
  simp only [Bool.true_eq_false, if_false]
  rw [if_neg]
  intro hc
  have hl := (Names.flatten hrow).length
  rw [hc] at hl
  have hne : (stageStateRows po d k).flatten ≠ [] := by
    intro hc'
    have : xRows po d k 0 ≠ [] := xRows_ne_nil hn
    obtain ⟨r, hr⟩ := List.exists_mem_of_ne_nil _ this
    have hmem : r ∈ stageStateRows po d k :=
      List.mem_flatMap.2 ⟨0, List.mem_range.2 hk, hr⟩
    have := List.flatten_eq_nil_iff.1 hc' r hmem
    have hlen : r.length = d.nX := by
      rcases xRows_mem hr with ⟨j, rfl⟩ | rfl <;> simp [blk]
    rw [this] at hlen
    simp at hlen
    omega
  exact hne (List.length_eq_zero_iff.1 (by simpa using hl.symm))

theorem zip_const {α β : Type} (l : List α) (b : β) (l' : List β) (h : l.length = l'.length)
    (hb : ∀ x ∈ l', x = b) : (l.map fun a => (a, b)) = l.zip l' := by
  induction l generalizing l' with
  | nil => simp
  | cons a l ih =>
    cases l' with
    | nil => simp at h
    | cons c l' =>
      rw [List.map_cons, List.zip_cons_cons, hb c List.mem_cons_self,
        ih l' (by simpa using h) fun x hx => hb x (List.mem_cons_of_mem _ hx)]

theorem xcurrentLoop_eq {w : List Sym} (hd : w.Nodup) {d : Dims} {x0 : List ℝ} (hn : 0 < po.nS)
    (hx : x0.length = d.nX) (hx0 : 0 < d.nX) {rows : List (List FEIdx)} {ks : List Nat}
    (hk : ∀ k ∈ ks, 0 < nfe po k)
    (h : List.Forall₂ (fun row k => List.Forall₂ (fun fi e => FENames po d w k e fi) row
      (List.range (nfe po k))) rows ks) (g : Sym → ℝ) :
    xcurrentLoop x0 (w.map g) rows = (w.map (fun t =>
      if t ∈ (ks.flatMap (stageStateRows po d)).flatten then x0.getD ((stateIdx t).getD 0) 0
      else g t), none) := by
  induction h generalizing g with
  | nil => simp [xcurrentLoop]
  | @cons row k rows ks hrow _ ih =>
    have hr2 := row_forall₂ hrow
    have e1 : ((row.flatMap fun fi => fi.one .x).map fun ix => (ix, x0))
        = (row.flatMap fun fi => fi.one .x).zip ((stageStateRows po d k).map
            (List.map fun t => x0.getD ((stateIdx t).getD 0) 0)) := by
      apply zip_const
      · rw [List.length_map, hr2.length_eq]
      · intro v hv
        obtain ⟨r, hr, rfl⟩ := List.mem_map.1 hv
        obtain ⟨e, -, hr⟩ := List.mem_flatMap.1 hr
        exact xRows_map hx hr
    rw [xcurrentLoop, npIndex3_ok hn (hk k List.mem_cons_self) hx0 hrow]
    dsimp only
    rw [e1, npAssignAll_map hd _ hr2]
    dsimp only
    rw [ih (fun k' hk' => hk k' (List.mem_cons_of_mem _ hk')), Prod.mk.injEq]
    refine ⟨List.map_congr_left fun t _ => ?_, rfl⟩
    simp only [List.flatMap_cons, List.flatten_append, List.mem_append]
    by_cases h1 : t ∈ (ks.flatMap (stageStateRows po d)).flatten
    · simp only [h1, or_true, if_true]
    · by_cases h2 : t ∈ (stageStateRows po d k).flatten
      · simp only [h1, h2, or_false, if_true, if_false]
      · simp only [h1, h2, or_false, if_false]

/-- The guess after the initialisation with `ALL_XCURRENT_*`. -/
theorem initGuess_xcurrent (h : Setup colloc o um uo po m oc P) (hi : Inv po m P S)
    (hs : o.initStrategy = .allXcurrentW0Start ∨ o.initStrategy = .allXcurrentWoptPrev)
    (hx : S.m.x0.length = um.nX) (hx0 : 0 < um.nX) {g : Sym → ℝ}
    (hg : S.P.form.w0 = S.P.form.w.map g) :
    S.initGuess = (S.setW0 (S.P.form.w.map fun t => match stateIdx t with
      | some i => S.m.x0.getD i 0
      | none => g t), none) := by
  have hso : S.o.initStrategy = o.initStrategy := by rw [hi.opts, h.opts]
  have hb := h.built
  have d1 := h.dims.1
  have key := xcurrentLoop_eq (po := po) (C01_index_lists_partition h).2 (d := m.dims)
    (x0 := S.m.x0) hb.nS (by rw [d1]; exact hx) (by rw [d1]; exact hx0)
    (fun k hk => (hb.ok.primal.nfe k (List.mem_range.1 hk)).2) (C02_index_lists_name h).fe g
  have e : S.initGuess = (S.setW0 (xcurrentLoop S.m.x0 S.P.form.w0 S.P.idx).1,
      (xcurrentLoop S.m.x0 S.P.form.w0 S.P.idx).2) := by
    unfold Solver.initGuess
    rcases hs with hs | hs <;> rw [hso, hs]
  rw [e, hg, hi.idx, hi.w, key]
  rw [Prod.mk.injEq]
  refine ⟨congrArg _ (List.map_congr_left fun t ht => ?_), rfl⟩
  by_cases hst : (stateIdx t).isSome = true
  · obtain ⟨i, hi⟩ := Option.isSome_iff_exists.1 hst
    have hv : IsVar po m.dims t := by
      rcases (C04_variables h t).2 ht with hv | ⟨-, ⟨k, e, i, rfl⟩ | ⟨i, rfl⟩⟩
      · exact hv
      · cases hst
      · cases hst
    rw [if_pos (mem_stageStateRows hv (fun k hk => List.mem_range.2 hk) hst), hi]; rfl
  · have : stateIdx t = none := by simpa using hst
    rw [if_neg (fun hc => hst (stateIdx_of_mem hc)), this]

/-- The value of a guess entry after the states are overwritten. -/
noncomputable def withState (x0 : List ℝ) (g : Sym → ℝ) (t : Sym) : ℝ :=
  match stateIdx t with
  | some i => x0.getD i 0
  | none => g t

theorem withState_twice (x0 : List ℝ) (g : Sym → ℝ) :
    withState x0 (withState x0 g) = withState x0 g := by
  funext t
  unfold withState
  split
  · rfl
  · rfl

theorem initGuess_withState (h : Setup colloc o um uo po m oc P) (hi : Inv po m P S)
    (hs : o.initStrategy = .allXcurrentW0Start ∨ o.initStrategy = .allXcurrentWoptPrev)
    (hx : S.m.x0.length = um.nX) (hx0 : 0 < um.nX) {g : Sym → ℝ}
    (hg : S.P.form.w0 = S.P.form.w.map g) :
    S.initGuess = (S.setW0 (S.P.form.w.map (withState S.m.x0 g)), none) :=
  initGuess_xcurrent h hi hs hx hx0 hg

end

end Nosnoc
