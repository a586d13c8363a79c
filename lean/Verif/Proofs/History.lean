import Verif.Proofs.Repeat
import Verif.Spec.History
/-
Helper lemmas: sequences of calls of `set`.
-/
namespace Nosnoc

/-! ### Point writes -/

/-- Writes of single entries, in order. -/
def applyW (w : List ℝ) (W : List (Nat × ℝ)) : List ℝ := W.foldl (fun w q => w.set q.1 q.2) w

/-- The last value written to position `i`. -/
def lastW : List (Nat × ℝ) → Nat → Option ℝ
  | [], _ => none
  | q :: W, i => match lastW W i with
    | some v => some v
    | none => if q.1 = i then some q.2 else none

theorem applyW_getElem? (w : List ℝ) (W : List (Nat × ℝ)) (i : Nat) :
    (applyW w W)[i]? = (w[i]?).map fun a => (lastW W i).getD a := by
  induction W generalizing w with
  | nil => cases h : w[i]? <;> simp [applyW, lastW, h]
  | cons q W ih =>
    show (applyW (w.set q.1 q.2) W)[i]? = _
    rw [ih, List.getElem?_set, lastW]
    by_cases hq : q.1 = i
    · subst hq
      by_cases hl : q.1 < w.length
      · rw [if_pos rfl, if_pos hl, List.getElem?_eq_getElem hl]
        cases lastW W q.1 <;> simp
      · rw [if_pos rfl, if_neg hl, List.getElem?_eq_none (not_lt.1 hl)]
        rfl
    · rw [if_neg hq]
      cases lastW W i <;> simp [hq]

theorem length_applyW (w : List ℝ) (W : List (Nat × ℝ)) : (applyW w W).length = w.length := by
  induction W generalizing w with
  | nil => rfl
  | cons q W ih => show (applyW (w.set q.1 q.2) W).length = _; rw [ih, List.length_set]

theorem lastW_none {W : List (Nat × ℝ)} {i : Nat} (h : ∀ q ∈ W, q.1 ≠ i) : lastW W i = none := by
  induction W with
  | nil => rfl
  | cons q W ih =>
    rw [lastW, ih fun q' hq' => h q' (List.mem_cons_of_mem _ hq'), if_neg (h q List.mem_cons_self)]

theorem lastW_some {W : List (Nat × ℝ)} {i : Nat} (h : ∃ q ∈ W, q.1 = i) : ∃ v, lastW W i = some v := by
  induction W with
  | nil => obtain ⟨q, hq, -⟩ := h; cases hq
  | cons q W ih =>
    rw [lastW]
    cases hl : lastW W i with
    | some v => exact ⟨v, rfl⟩
    | none =>
      obtain ⟨q', hq', he⟩ := h
      rcases List.mem_cons.1 hq' with rfl | hm
      · exact ⟨_, if_pos he⟩
      · obtain ⟨v, hv⟩ := ih ⟨q', hm, he⟩
        rw [hl] at hv
        cases hv

/-- Writes at different positions can be swapped. -/
theorem applyW_comm (w : List ℝ) {A B : List (Nat × ℝ)} (h : ∀ a ∈ A, ∀ b ∈ B, a.1 ≠ b.1) :
    applyW (applyW w A) B = applyW (applyW w B) A := by
  apply List.ext_getElem?
  intro i
  rw [applyW_getElem?, applyW_getElem?, applyW_getElem?, applyW_getElem?]
  by_cases hA : ∃ a ∈ A, a.1 = i
  · have hB : lastW B i = none := lastW_none fun b hb e => by
      obtain ⟨a, ha, ea⟩ := hA
      exact h a ha b hb (ea.trans e.symm)
    rw [hB]
    cases w[i]? <;> rfl
  · push Not at hA
    rw [lastW_none hA]
    cases w[i]? <;> rfl

/-- Writes are lost if all their positions are written again. -/
theorem applyW_absorb (w : List ℝ) {A B : List (Nat × ℝ)} (h : ∀ a ∈ A, ∃ b ∈ B, b.1 = a.1) :
    applyW (applyW w A) B = applyW w B := by
  apply List.ext_getElem?
  intro i
  rw [applyW_getElem?, applyW_getElem?, applyW_getElem?]
  by_cases hB : ∃ b ∈ B, b.1 = i
  · obtain ⟨v, hv⟩ := lastW_some hB
    rw [hv]
    cases w[i]? <;> rfl
  · have hA : lastW A i = none := lastW_none fun a ha e => by
      obtain ⟨b, hb, eb⟩ := h a ha
      exact hB ⟨b, hb, eb.trans e⟩
    rw [hA]
    cases w[i]? <;> rfl

/-- `npAssignAll` as point writes: what is written before the first exception, and the exception. -/
def npRun (n : Nat) : List (List Nat × List ℝ) → List (Nat × ℝ) × Option PyErr
  | [] => ([], none)
  | (ix, v) :: l => match (if ∀ i ∈ ix, i < n then bcast ix.length v else .error .indexError) with
    | .ok v' => (ix.zip v' ++ (npRun n l).1, (npRun n l).2)
    | .error e => ([], some e)

theorem npAssignAll_run (w : List ℝ) (l : List (List Nat × List ℝ)) :
    npAssignAll w l = (applyW w (npRun w.length l).1, (npRun w.length l).2) := by
  induction l generalizing w with
  | nil => rfl
  | cons q l ih =>
    obtain ⟨ix, v⟩ := q
    unfold npAssignAll npRun npAssign
    by_cases hix : ∀ i ∈ ix, i < w.length
    · rw [if_pos hix, if_pos hix]
      cases hb : bcast ix.length v with
      | error e => rfl
      | ok v' =>
        show npAssignAll (writes w ix v') l = _
        have e : (writes w ix v') = applyW w (ix.zip v') := rfl
        rw [ih, e, length_applyW]
        show _ = (applyW w (ix.zip v' ++ _), _)
        unfold applyW
        rw [List.foldl_append]
    · rw [if_neg hix, if_neg hix]
      rfl

theorem npRun_pos {n : Nat} {l : List (List Nat × List ℝ)} {q : Nat × ℝ} (h : q ∈ (npRun n l).1) :
    q.1 ∈ l.flatMap Prod.fst := by
  induction l with
  | nil => cases h
  | cons r l ih =>
    obtain ⟨ix, v⟩ := r
    unfold npRun at h
    rw [List.flatMap_cons, List.mem_append]
    split at h
    · rcases List.mem_append.1 h with h | h
      · exact .inl (List.of_mem_zip h).1
      · exact .inr (ih h)
    · cases h

theorem npRun_all {n : Nat} {l : List (List Nat × List ℝ)} (h : (npRun n l).2 = none) {i : Nat}
    (hi : i ∈ l.flatMap Prod.fst) : ∃ q ∈ (npRun n l).1, q.1 = i := by
  induction l with
  | nil => cases hi
  | cons r l ih =>
    obtain ⟨ix, v⟩ := r
    unfold npRun at h ⊢
    rw [List.flatMap_cons, List.mem_append] at hi
    split at h
    · rename_i v' hv
      dsimp only
      rcases hi with hi | hi
      · have hl : v'.length = ix.length := by
          split at hv
          · exact bcast_length hv
          · cases hv
        change i ∈ ix at hi
        obtain ⟨j, hj, rfl⟩ := List.getElem_of_mem hi
        refine ⟨(ix[j], v'[j]), List.mem_append_left _ ?_, rfl⟩
        refine List.mem_iff_getElem.2 ⟨j, by rw [List.length_zip]; omega, ?_⟩
        rw [List.getElem_zip]
      · obtain ⟨q, hq, e⟩ := ih h hi
        exact ⟨q, List.mem_append_right _ hq, e⟩
    · cases h

/-! ### What a call of `set` does -/

/-- The fields that address guesses (other than the whole vector). -/
def Field.guess : Field → Bool
  | .x | .u | .vGlobal | .theta => true
  | _ => false

/-- The positions a field addresses. -/
def Problem.slots (P : Problem) : Field → List Nat
  | .x => P.idx.flatten.flatMap fun fi => (fi.one .x).flatten
  | .u => P.indU.flatten
  | .vGlobal => P.indVGlobal.flatten
  | .theta => P.idx.flatten.flatMap fun fi => (fi.two .theta).flatten.flatten
  | _ => []

/-- The assignments of a call. -/
def Solver.plan (S : Solver) (f : Field) (value : Arr) : Except PyErr (List (List Nat × List ℝ)) := match f with
  | .x => if value.shape0 = S.o.nStages then withRows value (byStage (fun fi => fi.one .x) S.P.idx)
      else if value.shape0 = S.o.nfeList.sum then withRows value (byElement (fun fi => fi.one .x) S.P.idx)
      else .error .valueError
  | .u => do
      let ix ← npIndex2 S.P.indU
      let v ← value.bcast2 ix.length ((ix.headD []).length)
      .ok (ix.zip v)
  | .vGlobal => do
      let ix ← npIndex2 S.P.indVGlobal
      let v ← value.bcast2 ix.length ((ix.headD []).length)
      .ok (ix.zip v)
  | .theta => if value.shape0 = S.o.nfeList.sum then do
      let l ← S.P.idx.flatten.zipIdx.mapM fun (q : FEIdx × Nat) => do
        let rows ← (q.1.two .theta).mapM listIndex2
        (.ok (rows.flatten.map fun ix => (ix, q.2)) : Except PyErr (List (List Nat × Nat)))
      withRows value l.flatten
    else .error .exception
  | _ => .ok []

/-- The exception after the assignments. -/
def Solver.after (S : Solver) (f : Field) (e : Option PyErr) : Option PyErr := match e, f with
  | some e, _ => some e
  | none, .x => if S.o.initStrategy = .external then none else some .warning
  | none, _ => none

/-- Point writes and exception of a call. -/
def Solver.eff (S : Solver) (f : Field) (value : Arr) : List (Nat × ℝ) × Option PyErr :=
  match S.plan f value with
  | .error e => ([], some e)
  | .ok l => ((npRun S.P.form.w0.length l).1, S.after f (npRun S.P.form.w0.length l).2)

theorem setW0_self (S : Solver) : S.setW0 S.P.form.w0 = S := rfl

theorem set_guess {f : Field} (hf : f.guess = true) (S : Solver) (value : Arr) :
    S.set f value = (S.setW0 (applyW S.P.form.w0 (S.eff f value).1), (S.eff f value).2) := by
  cases f with
  | x =>
    show thenWarn (S.setXWrites value) = _
    unfold Solver.eff Solver.plan Solver.setXWrites
    dsimp only
    by_cases h1 : value.shape0 = S.o.nStages
    · rw [if_pos h1, if_pos h1]
      unfold Solver.writeRows
      cases withRows value (byStage (fun fi => fi.one .x) S.P.idx) with
      | error e => rfl
      | ok l =>
        dsimp only
        unfold Solver.write
        rw [npAssignAll_run]
        dsimp only
        cases (npRun S.P.form.w0.length l).2 <;> rfl
    · rw [if_neg h1, if_neg h1]
      by_cases h2 : value.shape0 = S.o.nfeList.sum
      · rw [if_pos h2, if_pos h2]
        unfold Solver.writeRows
        cases withRows value (byElement (fun fi => fi.one .x) S.P.idx) with
        | error e => rfl
        | ok l =>
          dsimp only
          unfold Solver.write
          rw [npAssignAll_run]
          dsimp only
          cases (npRun S.P.form.w0.length l).2 <;> rfl
      · rw [if_neg h2, if_neg h2]
        rfl
  | u =>
    show S.setArr S.P.indU value = _
    unfold Solver.eff Solver.plan Solver.setArr
    dsimp only
    split
    · rename_i e he
      rw [he]
      rfl
    · rename_i l he
      rw [he]
      dsimp only
      unfold Solver.write
      rw [npAssignAll_run]
      dsimp only
      cases (npRun S.P.form.w0.length l).2 <;> rfl
  | vGlobal =>
    show S.setArr S.P.indVGlobal value = _
    unfold Solver.eff Solver.plan Solver.setArr
    dsimp only
    split
    · rename_i e he
      rw [he]
      rfl
    · rename_i l he
      rw [he]
      dsimp only
      unfold Solver.write
      rw [npAssignAll_run]
      dsimp only
      cases (npRun S.P.form.w0.length l).2 <;> rfl
  | theta =>
    show S.setTheta value = _
    unfold Solver.eff Solver.plan Solver.setTheta
    dsimp only
    by_cases h1 : value.shape0 = S.o.nfeList.sum
    · rw [if_pos h1, if_pos h1]
      split
      · rename_i e he
        rw [he]
        rfl
      · rename_i l he
        rw [he]
        dsimp only
        unfold Solver.write
        rw [npAssignAll_run]
        dsimp only
        cases (npRun S.P.form.w0.length l).2 <;> rfl
    · rw [if_neg h1, if_neg h1]
      rfl
  | _ => cases hf

/-! ### Positions -/

theorem withRows_fst {value : Arr} {l : List (List Nat × Nat)} {r : List (List Nat × List ℝ)}
    (h : withRows value l = .ok r) : r.map Prod.fst = l.map Prod.fst := by
  unfold withRows at h
  induction l generalizing r with
  | nil => cases h; rfl
  | cons q l ih =>
    rw [List.mapM_cons] at h
    cases hv : value.row q.2 with
    | error e => rw [hv] at h; cases h
    | ok v =>
      rw [hv] at h
      cases hm : l.mapM (fun q => do let r ← value.row q.2; (.ok (q.1, r) : Except PyErr _)) with
      | error e => rw [hm] at h; cases h
      | ok t =>
        rw [hm] at h
        cases h
        rw [List.map_cons, List.map_cons, ih hm]

theorem byStage_fst (g : FEIdx → List (List Nat)) (idx : List (List FEIdx)) :
    (byStage g idx).map Prod.fst = idx.flatten.flatMap g := by
  unfold byStage
  rw [List.map_flatMap]
  have : (fun q : List FEIdx × Nat => (q.1.flatMap fun fi => (g fi).map fun ix => (ix, q.2)).map Prod.fst)
      = fun q => (fun r : List FEIdx => r.flatMap g) q.1 := by
    funext q
    rw [List.map_flatMap]
    congr 1
    funext fi
    rw [List.map_map]
    exact List.map_id _
  rw [this, ← List.flatMap_map, List.zipIdx_map_fst, List.flatten_eq_flatMap, List.flatMap_assoc]
  rfl

theorem byElement_fst (g : FEIdx → List (List Nat)) (idx : List (List FEIdx)) :
    (byElement g idx).map Prod.fst = idx.flatten.flatMap g := by
  unfold byElement
  rw [List.map_flatMap]
  have : (fun q : FEIdx × Nat => ((g q.1).map fun ix => (ix, q.2)).map Prod.fst)
      = fun q => g q.1 := by
    funext q
    rw [List.map_map]
    exact List.map_id _
  rw [this, ← List.flatMap_map, List.zipIdx_map_fst]

theorem flatMap_fst {α β : Type} (l : List (List α × β)) : l.flatMap Prod.fst = (l.map Prod.fst).flatten := by
  rw [List.flatMap_def]

theorem bcast2_length {r c : Nat} {value : Arr} {v : List (List ℝ)} (h : value.bcast2 r c = .ok v) :
    v.length = r := by
  cases value with
  | vec a =>
    simp only [Arr.bcast2] at h
    cases hb : bcast c a with
    | error e => rw [hb] at h; cases h
    | ok a' => rw [hb] at h; cases h; exact List.length_replicate
  | mat r' c' f =>
    simp only [Arr.bcast2] at h
    split at h
    · cases h; simp
    · cases h

theorem npIndex2_eq {ix ix' : List (List Nat)} (h : npIndex2 ix = .ok ix') : ix' = ix := by
  unfold npIndex2 at h
  split at h
  · cases h
  · split at h
    · cases h
    · cases h; rfl

theorem arr_slots {ind : List (List Nat)} {value : Arr} {l : List (List Nat × List ℝ)}
    (h : (do
      let ix ← npIndex2 ind
      let v ← value.bcast2 ix.length ((ix.headD []).length)
      (.ok (ix.zip v) : Except PyErr _)) = .ok l) : l.flatMap Prod.fst = ind.flatten := by
  cases h1 : npIndex2 ind with
  | error e => rw [h1] at h; cases h
  | ok ix =>
    have e := npIndex2_eq h1
    subst e
    rw [h1] at h
    change (do
      let v ← value.bcast2 ix.length ((ix.headD []).length)
      (.ok (ix.zip v) : Except PyErr _)) = .ok l at h
    cases h2 : value.bcast2 ix.length ((ix.headD []).length) with
    | error e => rw [h2] at h; cases h
    | ok v =>
      rw [h2] at h
      cases h
      rw [flatMap_fst, List.map_fst_zip (by rw [bcast2_length h2])]

theorem mapM_listIndex2 {l r : List (List (List Nat))} (h : l.mapM listIndex2 = .ok r) : r = l := by
  induction l generalizing r with
  | nil => cases h; rfl
  | cons a l ih =>
    rw [List.mapM_cons] at h
    have ha : ∀ b, listIndex2 a = .ok b → b = a := by
      intro b hb
      unfold listIndex2 at hb
      split at hb
      · cases hb
      · cases hb; rfl
    cases h1 : listIndex2 a with
    | error e => rw [h1] at h; cases h
    | ok b =>
      rw [h1] at h
      cases h2 : l.mapM listIndex2 with
      | error e => rw [h2] at h; cases h
      | ok t => rw [h2] at h; cases h; rw [ih h2, ha b h1]

theorem thetaPlan_rows {l : List (FEIdx × Nat)} {r : List (List (List Nat × Nat))}
    (h : l.mapM (fun (q : FEIdx × Nat) => do
        let rows ← (q.1.two .theta).mapM listIndex2
        (.ok (rows.flatten.map fun ix => (ix, q.2)) : Except PyErr (List (List Nat × Nat)))) = .ok r) :
    r.flatten.map Prod.fst = l.flatMap fun q => (q.1.two .theta).flatten := by
  induction l generalizing r with
  | nil => cases h; rfl
  | cons a l ih =>
    rw [List.mapM_cons] at h
    cases h1 : (a.1.two .theta).mapM listIndex2 with
    | error e => rw [h1] at h; cases h
    | ok b =>
      rw [h1] at h
      change (do
        let t ← l.mapM (fun (q : FEIdx × Nat) => do
          let rows ← (q.1.two .theta).mapM listIndex2
          (.ok (rows.flatten.map fun ix => (ix, q.2)) : Except PyErr (List (List Nat × Nat))))
        (.ok (b.flatten.map (fun ix => (ix, a.2)) :: t) : Except PyErr _)) = .ok r at h
      cases h2 : l.mapM (fun (q : FEIdx × Nat) => do
          let rows ← (q.1.two .theta).mapM listIndex2
          (.ok (rows.flatten.map fun ix => (ix, q.2)) : Except PyErr (List (List Nat × Nat)))) with
      | error e => rw [h2] at h; cases h
      | ok t =>
        rw [h2] at h
        cases h
        rw [List.flatten_cons, List.map_append, ih h2, List.flatMap_cons, mapM_listIndex2 h1, List.map_map]
        congr 1
        exact List.map_id _

theorem plan_slots {f : Field} {S : Solver} {value : Arr} {l : List (List Nat × List ℝ)}
    (h : S.plan f value = .ok l) : l.flatMap Prod.fst = S.P.slots f := by
  cases f with
  | x =>
    simp only [Solver.plan] at h
    rw [flatMap_fst]
    show _ = S.P.idx.flatten.flatMap fun fi => (fi.one .x).flatten
    have e : (S.P.idx.flatten.flatMap fun fi => fi.one .x).flatten
        = S.P.idx.flatten.flatMap fun fi => (fi.one .x).flatten := by
      rw [List.flatMap_def, List.flatMap_def, List.flatten_flatten, List.map_map]
      rfl
    split at h
    · rw [withRows_fst h, byStage_fst, e]
    · split at h
      · rw [withRows_fst h, byElement_fst, e]
      · cases h
  | u => exact arr_slots h
  | vGlobal => exact arr_slots h
  | theta =>
    simp only [Solver.plan] at h
    split at h
    · cases h1 : S.P.idx.flatten.zipIdx.mapM (fun (q : FEIdx × Nat) => do
          let rows ← (q.1.two .theta).mapM listIndex2
          (.ok (rows.flatten.map fun ix => (ix, q.2)) : Except PyErr (List (List Nat × Nat)))) with
      | error e => rw [h1] at h; cases h
      | ok r =>
        rw [h1] at h
        change withRows value r.flatten = .ok l at h
        rw [flatMap_fst, withRows_fst h, thetaPlan_rows h1]
        show _ = S.P.idx.flatten.flatMap fun fi => (fi.two .theta).flatten.flatten
        rw [← List.flatMap_map Prod.fst (fun fi : FEIdx => (fi.two .theta).flatten), List.zipIdx_map_fst,
          List.flatMap_def, List.flatMap_def, List.flatten_flatten, List.map_map]
        rfl
    · cases h
  | _ => cases h; rfl

theorem eff_pos {f : Field} {S : Solver} {value : Arr} {q : Nat × ℝ} (h : q ∈ (S.eff f value).1) :
    q.1 ∈ S.P.slots f := by
  unfold Solver.eff at h
  split at h
  · cases h
  · rename_i l hl
    rw [← plan_slots hl]
    exact npRun_pos h

theorem bcast_no_warning {n : Nat} {v : List ℝ} : bcast n v ≠ .error .warning := by
  unfold bcast
  split
  · simp
  · split <;> simp

theorem npRun_no_warning {n : Nat} {l : List (List Nat × List ℝ)} : (npRun n l).2 ≠ some .warning := by
  induction l with
  | nil => simp [npRun]
  | cons q l ih =>
    obtain ⟨ix, v⟩ := q
    unfold npRun
    split
    · exact ih
    · rename_i e he
      intro hc
      cases hc
      split at he
      · exact bcast_no_warning he
      · cases he

theorem row_no_warning {value : Arr} {i : Nat} : value.row i ≠ .error .warning := by
  cases value with
  | vec v => simp [Arr.row]
  | mat r c f => simp only [Arr.row]; split <;> simp

theorem withRows_no_warning {value : Arr} {l : List (List Nat × Nat)} : withRows value l ≠ .error .warning := by
  unfold withRows
  induction l with
  | nil => simp [pure, Except.pure]
  | cons q l ih =>
    rw [List.mapM_cons]
    cases hv : value.row q.2 with
    | error e =>
      intro hc
      cases hc
      exact row_no_warning hv
    | ok v =>
      cases hm : l.mapM (fun q => do let r ← value.row q.2; (.ok (q.1, r) : Except PyErr _)) with
      | error e =>
        intro hc
        apply ih
        rw [hm]
        cases hc
        rfl
      | ok t => intro hc; cases hc

theorem listIndex2_no_warning {ix : List (List Nat)} : listIndex2 ix ≠ .error .warning := by
  unfold listIndex2; split <;> simp

theorem npIndex2_no_warning {ix : List (List Nat)} : npIndex2 ix ≠ .error .warning := by
  unfold npIndex2; split
  · simp
  · split <;> simp

theorem mapM_no_warning {α β : Type} {l : List α} {g : α → Except PyErr β} (h : ∀ a, g a ≠ .error .warning) :
    l.mapM g ≠ .error .warning := by
  induction l with
  | nil => simp [pure, Except.pure]
  | cons a l ih =>
    rw [List.mapM_cons]
    cases hv : g a with
    | error e => intro hc; cases hc; exact h a hv
    | ok v =>
      cases hm : l.mapM g with
      | error e => intro hc; cases hc; exact ih hm
      | ok t => intro hc; cases hc

theorem bcast2_no_warning {r c : Nat} {value : Arr} : value.bcast2 r c ≠ .error .warning := by
  cases value with
  | vec a =>
    simp only [Arr.bcast2]
    cases hb : bcast c a with
    | error e => intro hc; cases hc; exact bcast_no_warning hb
    | ok a' => intro hc; cases hc
  | mat r' c' f =>
    simp only [Arr.bcast2]
    split <;> simp

theorem arr_no_warning {ind : List (List Nat)} {value : Arr} : (do
      let ix ← npIndex2 ind
      let v ← value.bcast2 ix.length ((ix.headD []).length)
      (.ok (ix.zip v) : Except PyErr _)) ≠ .error .warning := by
  cases h1 : npIndex2 ind with
  | error e => intro hc; cases hc; exact npIndex2_no_warning h1
  | ok ix =>
    cases h2 : value.bcast2 ix.length ((ix.headD []).length) with
    | error e =>
      intro hc
      change (do
        let v ← value.bcast2 ix.length ((ix.headD []).length)
        (.ok (ix.zip v) : Except PyErr _)) = _ at hc
      rw [h2] at hc
      cases hc
      exact bcast2_no_warning h2
    | ok v =>
      intro hc
      change (do
        let v ← value.bcast2 ix.length ((ix.headD []).length)
        (.ok (ix.zip v) : Except PyErr _)) = _ at hc
      rw [h2] at hc
      cases hc

theorem plan_no_warning {f : Field} {S : Solver} {value : Arr} : S.plan f value ≠ .error .warning := by
  cases f with
  | x =>
    simp only [Solver.plan]
    split
    · exact withRows_no_warning
    · split
      · exact withRows_no_warning
      · simp
  | u => exact arr_no_warning
  | vGlobal => exact arr_no_warning
  | theta =>
    simp only [Solver.plan]
    split
    · cases h1 : S.P.idx.flatten.zipIdx.mapM (fun (q : FEIdx × Nat) => do
          let rows ← (q.1.two .theta).mapM listIndex2
          (.ok (rows.flatten.map fun ix => (ix, q.2)) : Except PyErr (List (List Nat × Nat)))) with
      | error e =>
        intro hc
        cases hc
        refine mapM_no_warning (fun q => ?_) h1
        cases h2 : (q.1.two .theta).mapM listIndex2 with
        | error e => intro hc; cases hc; exact mapM_no_warning (fun _ => listIndex2_no_warning) h2
        | ok b => intro hc; cases hc
      | ok r => exact withRows_no_warning
    · simp
  | _ => simp [Solver.plan]

theorem eff_all {f : Field} {S : Solver} {value : Arr} (h : Accepted (S.eff f value).2) {i : Nat}
    (hi : i ∈ S.P.slots f) : ∃ q ∈ (S.eff f value).1, q.1 = i := by
  unfold Solver.eff at h ⊢
  split at h
  · rename_i e he
    rcases h with h | h
    · cases h
    · cases h
      exact absurd he plan_no_warning
  · rename_i l hl
    rw [← plan_slots hl] at hi
    refine npRun_all ?_ hi
    cases hr : (npRun S.P.form.w0.length l).2 with
    | none => rfl
    | some e =>
      dsimp only at h
      rw [hr] at h
      rcases h with h | h
      · cases h
      · cases h
        exact absurd hr npRun_no_warning

/-! ### Parameters -/

/-- The parameter values after a call, and its exception. -/
def pOf (nPtv nPgl : Nat) (f : Field) (value : Arr) (p : List (List ℝ)) : List (List ℝ) × Option PyErr :=
  match f with
  | .pGlobal => match value.bcast1 nPgl with
    | .error e => (p, some e)
    | .ok v => (p.map (setGlobal nPtv v), none)
  | .pTimeVar => timeVarLoop nPtv value 0 p
  | _ => (p, none)

theorem timeVar_global (n : Nat) (value : Arr) (g : List ℝ) (i : Nat) (p : List (List ℝ))
    (hp : ∀ r ∈ p, n ≤ r.length) :
    timeVarLoop n value i (p.map (setGlobal n g))
      = ((timeVarLoop n value i p).1.map (setGlobal n g), (timeVarLoop n value i p).2) := by
  induction p generalizing i with
  | nil => rfl
  | cons r p ih =>
    rw [List.map_cons]
    unfold timeVarLoop
    cases hv : (do let v ← value.row i; bcast n v) with
    | error e => rfl
    | ok v =>
      have hl : v.length = n := by
        cases hr : value.row i with
        | error e => rw [hr] at hv; cases hv
        | ok a => rw [hr] at hv; exact bcast_length hv
      dsimp only
      rw [ih (i + 1) fun r hr => hp r (List.mem_cons_of_mem _ hr), List.map_cons]
      have h1 := hp r List.mem_cons_self
      refine Prod.ext ?_ rfl
      dsimp only
      congr 1
      unfold setTimeVar setGlobal
      rw [List.take_append_of_le_length (by omega), List.take_of_length_le (l := v) (by omega),
        List.drop_append_of_le_length (by rw [List.length_take]; omega), List.drop_of_length_le (l := r.take n)
          (by rw [List.length_take]; omega), List.nil_append]

theorem timeVar_twice (n : Nat) (v1 v2 : Arr) (i : Nat) (p : List (List ℝ))
    (h : (timeVarLoop n v2 i p).2 = none) :
    timeVarLoop n v2 i (timeVarLoop n v1 i p).1 = timeVarLoop n v2 i p := by
  induction p generalizing i with
  | nil => rfl
  | cons r p ih =>
    cases hv1 : (do let v ← v1.row i; bcast n v) with
    | error e => 
      have : timeVarLoop n v1 i (r :: p) = (r :: p, some e) := by rw [timeVarLoop, hv1]
      rw [this]
    | ok a =>
      have hl : a.length = n := by
        cases hr : v1.row i with
        | error e => rw [hr] at hv1; cases hv1
        | ok a => rw [hr] at hv1; exact bcast_length hv1
      have e1 : timeVarLoop n v1 i (r :: p)
          = (setTimeVar n a r :: (timeVarLoop n v1 (i + 1) p).1, (timeVarLoop n v1 (i + 1) p).2) := by
        rw [timeVarLoop, hv1]
      rw [e1]
      cases hv2 : (do let v ← v2.row i; bcast n v) with
      | error e => rw [timeVarLoop, hv2] at h; cases h
      | ok b =>
        rw [timeVarLoop, hv2] at h
        rw [timeVarLoop, hv2, timeVarLoop, hv2]
        dsimp only at h ⊢
        rw [ih (i + 1) h]
        refine Prod.ext ?_ rfl
        dsimp only
        congr 1
        unfold setTimeVar
        rw [List.drop_append_of_le_length (by omega), List.drop_of_length_le (l := a) (by omega), List.nil_append]

theorem timeVar_no_warning {n : Nat} {value : Arr} {i : Nat} {p : List (List ℝ)} :
    (timeVarLoop n value i p).2 ≠ some .warning := by
  induction p generalizing i with
  | nil => simp [timeVarLoop]
  | cons r p ih =>
    cases hv : (do let v ← value.row i; bcast n v) with
    | error e =>
      rw [timeVarLoop, hv]
      intro hc
      cases hc
      cases hr : value.row i with
      | error e => rw [hr] at hv; cases hv; exact row_no_warning hr
      | ok a => rw [hr] at hv; exact bcast_no_warning hv
    | ok v => rw [timeVarLoop, hv]; exact ih

theorem timeVar_rows {n : Nat} {value : Arr} {i : Nat} {p : List (List ℝ)} (hp : ∀ r ∈ p, n ≤ r.length) :
    ∀ r ∈ (timeVarLoop n value i p).1, n ≤ r.length := by
  induction p generalizing i with
  | nil => exact hp
  | cons r p ih =>
    cases hv : (do let v ← value.row i; bcast n v) with
    | error e => rw [timeVarLoop, hv]; exact hp
    | ok v =>
      have hl : v.length = n := by
        cases hr : value.row i with
        | error e => rw [hr] at hv; cases hv
        | ok a => rw [hr] at hv; exact bcast_length hv
      rw [timeVarLoop, hv]
      intro r' hr'
      rcases List.mem_cons.1 hr' with rfl | hr'
      · unfold setTimeVar
        rw [List.length_append]
        omega
      · exact ih (fun r hr => hp r (List.mem_cons_of_mem _ hr)) r' hr'

theorem pOf_rows {n m : Nat} {f : Field} {value : Arr} {p : List (List ℝ)} (hp : ∀ r ∈ p, n ≤ r.length) :
    ∀ r ∈ (pOf n m f value p).1, n ≤ r.length := by
  cases f with
  | pGlobal =>
    simp only [pOf]
    split
    · exact hp
    · intro r hr
      obtain ⟨q, hq, rfl⟩ := List.mem_map.1 hr
      have := hp q hq
      unfold setGlobal
      rw [List.length_append, List.length_take]
      omega
  | pTimeVar => exact timeVar_rows hp
  | _ => exact hp

theorem pOf_comm {n m : Nat} {f g : Field} (hfg : f ≠ g) (v w : Arr) {p : List (List ℝ)}
    (hp : ∀ r ∈ p, n ≤ r.length) :
    (pOf n m g w (pOf n m f v p).1).1 = (pOf n m f v (pOf n m g w p).1).1 ∧
    (pOf n m g w (pOf n m f v p).1).2 = (pOf n m g w p).2 := by
  cases f with
  | pGlobal =>
    cases g with
    | pTimeVar =>
      simp only [pOf]
      cases hb : v.bcast1 m with
      | error e => exact ⟨rfl, rfl⟩
      | ok a =>
        dsimp only
        rw [timeVar_global n w a 0 p hp]
        exact ⟨rfl, rfl⟩
    | pGlobal => exact absurd rfl hfg
    | _ => exact ⟨rfl, rfl⟩
  | pTimeVar =>
    cases g with
    | pGlobal =>
      simp only [pOf]
      cases hb : w.bcast1 m with
      | error e => exact ⟨rfl, rfl⟩
      | ok a =>
        dsimp only
        rw [timeVar_global n v a 0 p hp]
        exact ⟨rfl, rfl⟩
    | pTimeVar => exact absurd rfl hfg
    | _ => exact ⟨rfl, rfl⟩
  | _ => exact ⟨rfl, rfl⟩

theorem pOf_twice {n m : Nat} {f : Field} (v1 v2 : Arr) {p : List (List ℝ)}
    (hp : ∀ r ∈ p, n ≤ r.length) (h : (pOf n m f v2 p).2 = none) :
    pOf n m f v2 (pOf n m f v1 p).1 = pOf n m f v2 p := by
  cases f with
  | pGlobal =>
    simp only [pOf] at h ⊢
    cases hb : v1.bcast1 m with
    | error e => rfl
    | ok a =>
      cases hb2 : v2.bcast1 m with
      | error e => rw [hb2] at h; cases h
      | ok b =>
        dsimp only
        rw [List.map_map]
        refine Prod.ext (List.map_congr_left fun r hr => ?_) rfl
        have := hp r hr
        simp only [Function.comp_apply, setGlobal]
        rw [List.take_append_of_le_length (by rw [List.length_take]; omega), List.take_take, Nat.min_self]
  | pTimeVar => exact timeVar_twice n v1 v2 0 p h
  | _ => rfl

/-! ### One call, all fields but `w` -/

/-- `x0` after a call. -/
def x0Of : Field → Arr → List ℝ → List ℝ
  | .x0, .vec v, _ => v
  | .x0, .mat r c f, _ => (List.range r).flatMap fun i => (List.range c).map (f i)
  | _, _, x => x

/-- The object with other `x0`, parameter values and guess. -/
def Solver.upd (S : Solver) (x0 : List ℝ) (p : List (List ℝ)) (w0 : List ℝ) : Solver :=
  ((S.setX0 x0).setPVal p).setW0 w0

/-- The point writes of a call. -/
def Solver.effW (S : Solver) (f : Field) (v : Arr) : List (Nat × ℝ) := if f.guess then (S.eff f v).1 else []

/-- The exception of a call. -/
def Solver.outOf (S : Solver) (f : Field) (v : Arr) : Option PyErr := match f with
  | .pGlobal | .pTimeVar => (pOf S.m.dims.nPtv S.m.dims.nPgl f v S.m.pVal).2
  | .x | .u | .vGlobal | .theta => (S.eff f v).2
  | .other => some .notImplemented
  | _ => none

theorem set_form {f : Field} (hf : f ≠ .w) (S : Solver) (v : Arr) :
    S.set f v = (S.upd (x0Of f v S.m.x0) (pOf S.m.dims.nPtv S.m.dims.nPgl f v S.m.pVal).1
      (applyW S.P.form.w0 (S.effW f v)), S.outOf f v) := by
  cases f with
  | w => exact absurd rfl hf
  | x => rw [set_guess rfl]; cases v <;> rfl
  | u => rw [set_guess rfl]; cases v <;> rfl
  | vGlobal => rw [set_guess rfl]; cases v <;> rfl
  | theta => rw [set_guess rfl]; cases v <;> rfl
  | x0 => cases v <;> rfl
  | pGlobal =>
    have e : x0Of .pGlobal v S.m.x0 = S.m.x0 := by cases v <;> rfl
    rw [e]
    simp only [Solver.set, Solver.setPGlobal, Solver.outOf, pOf]
    cases v.bcast1 S.m.dims.nPgl <;> rfl
  | pTimeVar =>
    have e : x0Of .pTimeVar v S.m.x0 = S.m.x0 := by cases v <;> rfl
    rw [e]
    rfl
  | other =>
    have e : x0Of .other v S.m.x0 = S.m.x0 := by cases v <;> rfl
    rw [e]
    rfl

/-- The parts of the object that decide about acceptance and writes. -/
structure Solver.Same (S T : Solver) : Prop where
  o : T.o = S.o
  dims : T.m.dims = S.m.dims
  idx : T.P.idx = S.P.idx
  indU : T.P.indU = S.P.indU
  indV : T.P.indVGlobal = S.P.indVGlobal
  len : T.P.form.w0.length = S.P.form.w0.length

theorem Solver.Same.eff {S T : Solver} (h : S.Same T) (f : Field) (v : Arr) : T.eff f v = S.eff f v := by
  have hp : T.plan f v = S.plan f v := by
    cases f <;> simp only [Solver.plan, h.o, h.idx, h.indU, h.indV]
  have ha : ∀ e, T.after f e = S.after f e := by
    intro e
    cases f <;> cases e <;> simp only [Solver.after, h.o]
  unfold Solver.eff
  rw [hp, h.len]
  cases S.plan f v with
  | error e => rfl
  | ok l => dsimp only; rw [ha]

theorem Solver.Same.effW {S T : Solver} (h : S.Same T) (f : Field) (v : Arr) : T.effW f v = S.effW f v := by
  unfold Solver.effW; rw [h.eff]

theorem same_upd (S : Solver) (x0 : List ℝ) (p : List (List ℝ)) {w0 : List ℝ}
    (h : w0.length = S.P.form.w0.length) : S.Same (S.upd x0 p w0) := ⟨rfl, rfl, rfl, rfl, rfl, h⟩

/-- What the order of calls depends on. -/
structure Solver.Good (S : Solver) : Prop where
  disj : ∀ f g, f ≠ g → ∀ i ∈ S.P.slots f, i ∉ S.P.slots g
  rows : ∀ r ∈ S.m.pVal, S.m.dims.nPtv ≤ r.length

theorem Solver.Good.set {S : Solver} (h : S.Good) (f : Field) (v : Arr) : (S.set f v).1.Good := by
  by_cases hf : f = .w
  · subst hf
    cases v <;> exact ⟨h.disj, h.rows⟩
  · rw [set_form hf]
    exact ⟨h.disj, pOf_rows h.rows⟩

theorem x0Of_comm {f g : Field} (hfg : f ≠ g) (v w : Arr) (x : List ℝ) :
    x0Of g w (x0Of f v x) = x0Of f v (x0Of g w x) := by
  cases f <;> cases g <;> first | exact absurd rfl hfg | (cases v <;> cases w <;> rfl)

theorem effW_pos {S : Solver} {f : Field} {v : Arr} {q : Nat × ℝ} (h : q ∈ S.effW f v) :
    q.1 ∈ S.P.slots f := by
  unfold Solver.effW at h
  split at h
  · exact eff_pos h
  · cases h

theorem timeVar_length (n : Nat) (v : Arr) (i : Nat) (p : List (List ℝ)) :
    (timeVarLoop n v i p).1.length = p.length := by
  induction p generalizing i with
  | nil => rfl
  | cons r p ih =>
    rw [timeVarLoop]
    split
    · rfl
    · simp [ih]

theorem timeVar_out (n : Nat) (v : Arr) (i : Nat) {p q : List (List ℝ)} (h : p.length = q.length) :
    (timeVarLoop n v i p).2 = (timeVarLoop n v i q).2 := by
  induction p generalizing i q with
  | nil =>
    cases q with
    | nil => rfl
    | cons a q => cases h
  | cons r p ih =>
    cases q with
    | nil => cases h
    | cons a q =>
      rw [timeVarLoop, timeVarLoop]
      split
      · rfl
      · exact ih (i + 1) (Nat.succ.inj h)

theorem pOf_length (n m : Nat) (f : Field) (v : Arr) (p : List (List ℝ)) : (pOf n m f v p).1.length = p.length := by
  cases f with
  | pGlobal => simp only [pOf]; split <;> simp
  | pTimeVar => exact timeVar_length _ _ _ _
  | _ => rfl

theorem pOf_out (n m : Nat) (f : Field) (v : Arr) {p q : List (List ℝ)} (h : p.length = q.length) :
    (pOf n m f v p).2 = (pOf n m f v q).2 := by
  cases f with
  | pGlobal => simp only [pOf]; split <;> rfl
  | pTimeVar => exact timeVar_out _ _ _ h
  | _ => rfl

/-- The exception of a call does not depend on earlier calls. -/
theorem out_after (S : Solver) {f g : Field} (hf : f ≠ .w) (hg : g ≠ .w) (v w : Arr) :
    ((S.set f v).1.set g w).2 = (S.set g w).2 := by
  rw [set_form hf, set_form hg, set_form hg]
  dsimp only
  have hsame := same_upd S (x0Of f v S.m.x0) (pOf S.m.dims.nPtv S.m.dims.nPgl f v S.m.pVal).1
    (length_applyW S.P.form.w0 (S.effW f v))
  have hp := pOf_out S.m.dims.nPtv S.m.dims.nPgl g w (pOf_length S.m.dims.nPtv S.m.dims.nPgl f v S.m.pVal)
  cases g <;> simp only [Solver.outOf, hsame.eff] <;> first | rfl | exact hp

theorem set_comm {S : Solver} (hS : S.Good) {f g : Field} (hfg : f ≠ g) (hf : f ≠ .w) (hg : g ≠ .w) (v w : Arr) :
    ((S.set f v).1.set g w).1 = ((S.set g w).1.set f v).1 := by
  have h1 := same_upd S (x0Of f v S.m.x0) (pOf S.m.dims.nPtv S.m.dims.nPgl f v S.m.pVal).1
    (length_applyW S.P.form.w0 (S.effW f v))
  have h2 := same_upd S (x0Of g w S.m.x0) (pOf S.m.dims.nPtv S.m.dims.nPgl g w S.m.pVal).1
    (length_applyW S.P.form.w0 (S.effW g w))
  rw [set_form hf S, set_form hg S]
  dsimp only
  rw [set_form hg, set_form hf]
  dsimp only
  rw [h1.effW, h2.effW]
  show S.upd (x0Of g w (x0Of f v S.m.x0)) (pOf S.m.dims.nPtv S.m.dims.nPgl g w
        (pOf S.m.dims.nPtv S.m.dims.nPgl f v S.m.pVal).1).1
      (applyW (applyW S.P.form.w0 (S.effW f v)) (S.effW g w))
    = S.upd (x0Of f v (x0Of g w S.m.x0)) (pOf S.m.dims.nPtv S.m.dims.nPgl f v
        (pOf S.m.dims.nPtv S.m.dims.nPgl g w S.m.pVal).1).1
      (applyW (applyW S.P.form.w0 (S.effW g w)) (S.effW f v))
  rw [x0Of_comm hfg, (pOf_comm (m := S.m.dims.nPgl) hfg v w hS.rows).1, applyW_comm]
  intro a ha b hb e
  exact hS.disj f g hfg _ (effW_pos ha) (e ▸ effW_pos hb)

theorem pOf_no_warning {n m : Nat} {f : Field} {v : Arr} {p : List (List ℝ)} :
    (pOf n m f v p).2 ≠ some .warning := by
  cases f with
  | pGlobal =>
    simp only [pOf]
    cases hb : v.bcast1 m with
    | error e =>
      intro hc
      cases hc
      cases v with
      | vec a => exact bcast_no_warning hb
      | mat r c f =>
        simp only [Arr.bcast1] at hb
        split at hb
        · exact bcast_no_warning hb
        · cases hb
    | ok a => simp
  | pTimeVar => exact timeVar_no_warning
  | _ => simp [pOf]

theorem set_twice {S : Solver} (hS : S.Good) {f : Field} (v1 v2 : Arr) (h : Accepted (S.set f v2).2) :
    (S.set f v1).1.set f v2 = S.set f v2 := by
  by_cases hf : f = .w
  · subst hf
    cases v1 <;> cases v2 <;> rfl
  · have h1 := same_upd S (x0Of f v1 S.m.x0) (pOf S.m.dims.nPtv S.m.dims.nPgl f v1 S.m.pVal).1
      (length_applyW S.P.form.w0 (S.effW f v1))
    rw [set_form hf S v2] at h ⊢
    rw [set_form hf S v1]
    dsimp only at h ⊢
    rw [set_form hf, h1.effW]
    have hx : x0Of f v2 (x0Of f v1 S.m.x0) = x0Of f v2 S.m.x0 := by
      cases f <;> cases v1 <;> cases v2 <;> rfl
    have hp : pOf S.m.dims.nPtv S.m.dims.nPgl f v2 (pOf S.m.dims.nPtv S.m.dims.nPgl f v1 S.m.pVal).1
        = pOf S.m.dims.nPtv S.m.dims.nPgl f v2 S.m.pVal := by
      apply pOf_twice v1 v2 hS.rows
      cases hq : (pOf S.m.dims.nPtv S.m.dims.nPgl f v2 S.m.pVal).2 with
      | none => rfl
      | some e =>
        exfalso
        have hw := pOf_no_warning (n := S.m.dims.nPtv) (m := S.m.dims.nPgl) (f := f) (v := v2) (p := S.m.pVal)
        have hA : Accepted (pOf S.m.dims.nPtv S.m.dims.nPgl f v2 S.m.pVal).2 := by
          cases f <;> first | exact h | exact .inl rfl
        rcases hA with hA | hA
        · rw [hA] at hq; cases hq
        · exact hw hA
    have hw : applyW (applyW S.P.form.w0 (S.effW f v1)) (S.effW f v2) = applyW S.P.form.w0 (S.effW f v2) := by
      apply applyW_absorb
      intro a ha
      have hpos := effW_pos ha
      unfold Solver.effW at ha ⊢
      split at ha
      · rename_i hfg
        rw [if_pos hfg]
        refine eff_all ?_ hpos
        cases f <;> first | exact h | cases hfg
      · cases ha
    refine Prod.ext ?_ ?_
    · show S.upd (x0Of f v2 (x0Of f v1 S.m.x0)) (pOf S.m.dims.nPtv S.m.dims.nPgl f v2
          (pOf S.m.dims.nPtv S.m.dims.nPgl f v1 S.m.pVal).1).1
        (applyW (applyW S.P.form.w0 (S.effW f v1)) (S.effW f v2)) = _
      rw [hx, hp, hw]
    · show Solver.outOf _ f v2 = _
      cases f <;> simp only [Solver.outOf, h1.eff] <;> first | rfl | exact congrArg Prod.snd hp

theorem set_then_w {S : Solver} {f : Field} (hf : f.guess = true) (v w : Arr) :
    (S.set f v).1.set .w w = S.set .w w := by
  rw [set_guess hf]
  cases w <;> rfl

/-! ### Sequences of calls -/

theorem sets_cons (S : Solver) (c : Field × Arr) (cs : List (Field × Arr)) :
    S.sets (c :: cs) = (S.set c.1 c.2).1.sets cs := rfl

/-- A call is lost if the field is set again later. -/
theorem sets_strip (cs : List (Field × Arr)) : ∀ {S : Solver}, S.Good → ∀ {c : Field × Arr}, c.1 ≠ .w →
    (∀ d ∈ cs, d.1 ≠ .w ∧ Accepted (S.set d.1 d.2).2) → c.1 ∈ cs.map Prod.fst →
    S.sets (c :: cs) = S.sets cs := by
  induction cs with
  | nil => intro S _ c _ _ h; cases h
  | cons d cs ih =>
    intro S hS c hc hcs hm
    have hd := hcs d List.mem_cons_self
    rw [sets_cons, sets_cons, sets_cons]
    by_cases he : d.1 = c.1
    · obtain ⟨f, v⟩ := c
      obtain ⟨g, w⟩ := d
      dsimp only at he hd ⊢
      subst he
      rw [set_twice hS v w hd.2]
    · rw [set_comm hS (Ne.symm he) hc hd.1]
      have := ih (S := (S.set d.1 d.2).1) (hS.set _ _) (c := c) hc (fun e hm => by
        have h1 := hcs e (List.mem_cons_of_mem _ hm)
        exact ⟨h1.1, by rw [out_after S hd.1 h1.1]; exact h1.2⟩) (by
        rw [List.map_cons] at hm
        exact (List.mem_cons.1 hm).resolve_left (Ne.symm he))
      rw [sets_cons] at this
      exact this

/-- The last call of every field. -/
def strip : List (Field × Arr) → List (Field × Arr)
  | [] => []
  | c :: cs => if c.1 ∈ cs.map Prod.fst then strip cs else c :: strip cs

theorem strip_sub {cs : List (Field × Arr)} {c : Field × Arr} (h : c ∈ strip cs) : c ∈ cs := by
  induction cs with
  | nil => exact h
  | cons d cs ih =>
    rw [strip] at h
    split at h
    · exact List.mem_cons_of_mem _ (ih h)
    · rcases List.mem_cons.1 h with rfl | h
      · exact List.mem_cons_self
      · exact List.mem_cons_of_mem _ (ih h)

theorem sets_stripped (cs : List (Field × Arr)) : ∀ {S : Solver}, S.Good →
    (∀ d ∈ cs, d.1 ≠ .w ∧ Accepted (S.set d.1 d.2).2) → S.sets (strip cs) = S.sets cs := by
  induction cs with
  | nil => intro S _ _; rfl
  | cons c cs ih =>
    intro S hS hcs
    have hc := hcs c List.mem_cons_self
    have hr : ∀ d ∈ cs, d.1 ≠ .w ∧ Accepted (S.set d.1 d.2).2 := fun d hd => hcs d (List.mem_cons_of_mem _ hd)
    rw [strip]
    split
    · rename_i hm
      rw [ih hS hr, sets_strip cs hS hc.1 hr hm]
    · rw [sets_cons, sets_cons]
      exact ih (hS.set _ _) fun d hd => ⟨(hr d hd).1, by rw [out_after S hc.1 (hr d hd).1]; exact (hr d hd).2⟩

theorem strip_nodup (cs : List (Field × Arr)) : ((strip cs).map Prod.fst).Nodup := by
  induction cs with
  | nil => exact List.nodup_nil
  | cons c cs ih =>
    rw [strip]
    split
    · exact ih
    · rename_i hm
      rw [List.map_cons, List.nodup_cons]
      refine ⟨fun h => hm ?_, ih⟩
      obtain ⟨d, hd, e⟩ := List.mem_map.1 h
      exact List.mem_map.2 ⟨d, strip_sub hd, e⟩

theorem lastSet_cons (c : Field × Arr) (cs : List (Field × Arr)) (f : Field) :
    lastSet (c :: cs) f = match lastSet cs f with
      | some v => some v
      | none => if c.1 = f then some c.2 else none := by
  unfold lastSet
  rw [List.filter_cons]
  by_cases h : c.1 = f
  · rw [if_pos (by simpa using h), if_pos h, List.getLast?_cons]
    cases (cs.filter fun c => c.1 = f).getLast? <;> rfl
  · rw [if_neg (by simpa using h), if_neg h]
    cases (cs.filter fun c => c.1 = f).getLast? <;> rfl

theorem lastSet_none {cs : List (Field × Arr)} {f : Field} : lastSet cs f = none ↔ f ∉ cs.map Prod.fst := by
  unfold lastSet
  rw [Option.map_eq_none_iff, List.getLast?_eq_none_iff, List.filter_eq_nil_iff]
  constructor
  · intro h hm
    obtain ⟨c, hc, e⟩ := List.mem_map.1 hm
    exact h c hc (by simpa using e)
  · intro h c hc e
    exact h (List.mem_map.2 ⟨c, hc, by simpa using e⟩)

theorem mem_strip (cs : List (Field × Arr)) (f : Field) (v : Arr) :
    (f, v) ∈ strip cs ↔ lastSet cs f = some v := by
  induction cs with
  | nil => simp [strip, lastSet]
  | cons c cs ih =>
    rw [strip, lastSet_cons]
    by_cases hm : c.1 ∈ cs.map Prod.fst
    · rw [if_pos hm, ih]
      cases hl : lastSet cs f with
      | some a => rfl
      | none =>
        have : c.1 ≠ f := fun e => lastSet_none.1 hl (e ▸ hm)
        simp [this]
    · rw [if_neg hm, List.mem_cons, ih]
      by_cases he : c.1 = f
      · have hn : lastSet cs f = none := lastSet_none.2 (he ▸ hm)
        rw [hn]
        obtain ⟨g, w⟩ := c
        dsimp only at he
        subst he
        simp [eq_comm]
      · obtain ⟨g, w⟩ := c
        dsimp only at he
        cases hl : lastSet cs f with
        | some a => simp [Ne.symm he]
        | none => simp [he, Ne.symm he]

/-- Calls for different fields can be reordered. -/
theorem sets_perm {cs cs' : List (Field × Arr)} (h : cs.Perm cs') : ∀ {S : Solver}, S.Good →
    (∀ d ∈ cs, d.1 ≠ .w) → (cs.map Prod.fst).Nodup → S.sets cs = S.sets cs' := by
  induction h with
  | nil => intro S _ _ _; rfl
  | cons c _ ih =>
    intro S hS hw hn
    rw [List.map_cons, List.nodup_cons] at hn
    rw [sets_cons, sets_cons]
    exact ih (hS.set _ _) (fun d hd => hw d (List.mem_cons_of_mem _ hd)) hn.2
  | swap a b l =>
    intro S hS hw hn
    rw [List.map_cons, List.map_cons, List.nodup_cons] at hn
    rw [sets_cons, sets_cons, sets_cons, sets_cons]
    rw [set_comm hS (f := b.1) (g := a.1) (fun e => hn.1 (by rw [e]; exact List.mem_cons_self)) (hw b List.mem_cons_self)
      (hw a (List.mem_cons_of_mem _ List.mem_cons_self))]
  | trans h1 _ ih1 ih2 =>
    intro S hS hw hn
    rw [ih1 hS hw hn]
    exact ih2 hS (fun d hd => hw d (h1.mem_iff.2 hd)) ((h1.map _).nodup_iff.1 hn)

theorem sets_last {cs cs' : List (Field × Arr)} {S : Solver} (hS : S.Good)
    (h1 : ∀ d ∈ cs, d.1 ≠ .w ∧ Accepted (S.set d.1 d.2).2)
    (h2 : ∀ d ∈ cs', d.1 ≠ .w ∧ Accepted (S.set d.1 d.2).2)
    (hl : ∀ f, lastSet cs f = lastSet cs' f) : S.sets cs = S.sets cs' := by
  rw [← sets_stripped cs hS h1, ← sets_stripped cs' hS h2]
  refine sets_perm ?_ hS (fun d hd => (h1 d (strip_sub hd)).1) (strip_nodup cs)
  rw [List.perm_ext_iff_of_nodup (strip_nodup cs).of_map (strip_nodup cs').of_map]
  rintro ⟨f, v⟩
  rw [mem_strip, mem_strip, hl]

/-! ### Earlier solves -/

/-- `xcurrentLoop` as point writes. -/
def xRun (n : Nat) (x0 : List ℝ) : List (List FEIdx) → List (Nat × ℝ) × Option PyErr
  | [] => ([], none)
  | row :: rest => match npIndex3 (row.map fun fi => fi.one .x) with
    | .error e => ([], some e)
    | .ok ixs => match (npRun n (ixs.map fun ix => (ix, x0))).2 with
      | some e => ((npRun n (ixs.map fun ix => (ix, x0))).1, some e)
      | none => ((npRun n (ixs.map fun ix => (ix, x0))).1 ++ (xRun n x0 rest).1, (xRun n x0 rest).2)

theorem xcurrentLoop_run (x0 w : List ℝ) (rows : List (List FEIdx)) :
    xcurrentLoop x0 w rows = (applyW w (xRun w.length x0 rows).1, (xRun w.length x0 rows).2) := by
  induction rows generalizing w with
  | nil => rfl
  | cons row rest ih =>
    rw [xcurrentLoop, xRun]
    cases npIndex3 (row.map fun fi => fi.one .x) with
    | error e => rfl
    | ok ixs =>
      dsimp only
      rw [npAssignAll_run]
      dsimp only
      cases (npRun w.length (ixs.map fun ix => (ix, x0))).2 with
      | some e => rfl
      | none =>
        dsimp only
        rw [ih, length_applyW]
        unfold applyW
        rw [List.foldl_append]

theorem npIndex3_eq {ix : List (List (List Nat))} {ix' : List (List Nat)} (h : npIndex3 ix = .ok ix') :
    ix' = ix.flatten := by
  unfold npIndex3 at h
  split at h
  · cases h
  · exact npIndex2_eq h

theorem xRun_rows {row : List FEIdx} {ixs : List (List Nat)} {x0 : List ℝ}
    (h : npIndex3 (row.map fun fi => fi.one .x) = .ok ixs) :
    (ixs.map fun ix => (ix, x0)).flatMap Prod.fst = row.flatMap fun fi => (fi.one .x).flatten := by
  rw [npIndex3_eq h, flatMap_fst, List.map_map]
  have : (Prod.fst ∘ fun ix : List Nat => (ix, x0)) = id := rfl
  rw [this, List.map_id, List.flatten_flatten, List.map_map, List.flatMap_def]
  rfl

theorem xRun_pos {n : Nat} {x0 : List ℝ} {rows : List (List FEIdx)} {q : Nat × ℝ}
    (h : q ∈ (xRun n x0 rows).1) : q.1 ∈ rows.flatten.flatMap fun fi => (fi.one .x).flatten := by
  induction rows with
  | nil => cases h
  | cons row rest ih =>
    rw [List.flatten_cons, List.flatMap_append, List.mem_append]
    rw [xRun] at h
    split at h
    · cases h
    · rename_i ixs hix
      split at h
      · exact .inl (xRun_rows hix ▸ npRun_pos h)
      · rcases List.mem_append.1 h with h | h
        · exact .inl (xRun_rows hix ▸ npRun_pos h)
        · exact .inr (ih h)

theorem xRun_all {n : Nat} {x0 : List ℝ} {rows : List (List FEIdx)} (h : (xRun n x0 rows).2 = none) {i : Nat}
    (hi : i ∈ rows.flatten.flatMap fun fi => (fi.one .x).flatten) : ∃ q ∈ (xRun n x0 rows).1, q.1 = i := by
  induction rows with
  | nil => cases hi
  | cons row rest ih =>
    rw [List.flatten_cons, List.flatMap_append, List.mem_append] at hi
    rw [xRun] at h ⊢
    split at h
    · cases h
    · rename_i ixs hix
      split at h
      · cases h
      · rename_i hr
        rcases hi with hi | hi
        · rw [← xRun_rows (x0 := x0) hix] at hi
          obtain ⟨q, hq, e⟩ := npRun_all hr hi
          exact ⟨q, List.mem_append_left _ hq, e⟩
        · obtain ⟨q, hq, e⟩ := ih h hi
          exact ⟨q, List.mem_append_right _ hq, e⟩

/-- The positions that an initialisation overwrites. -/
def Solver.initSlots (S : Solver) : List Nat :=
  if S.o.initStrategy = .external then [] else S.P.slots .x

/-- `T` is `S` up to the record of calls and the guesses that every initialisation overwrites. -/
def Solver.Rel (S T : Solver) : Prop := ∃ l w, T = (S.setW0 w).withLog l ∧ w.length = S.P.form.w0.length ∧
  ∀ i ∉ S.initSlots, w[i]? = S.P.form.w0[i]?

theorem rel_refl (S : Solver) : S.Rel S := ⟨S.log, S.P.form.w0, rfl, rfl, fun _ _ => rfl⟩

theorem rel_trans {S T U : Solver} (h1 : S.Rel T) (h2 : T.Rel U) : S.Rel U := by
  obtain ⟨l, w, rfl, hw, hi⟩ := h1
  obtain ⟨l', w', rfl, hw', hi'⟩ := h2
  exact ⟨l', w', rfl, hw'.trans hw, fun i h => (hi' i h).trans (hi i h)⟩

theorem rel_symm {S T : Solver} (h1 : S.Rel T) : T.Rel S := by
  obtain ⟨l, w, rfl, hw, hi⟩ := h1
  exact ⟨S.log, S.P.form.w0, rfl, hw.symm, fun i h => (hi i h).symm⟩

theorem rel_set {S T : Solver} (h : S.Rel T) (f : Field) (v : Arr) : (S.set f v).1.Rel (T.set f v).1 := by
  obtain ⟨l, w, rfl, hw, hi⟩ := h
  by_cases hf : f = .w
  · subst hf
    cases v
    · exact ⟨l, _, rfl, rfl, fun _ _ => rfl⟩
    · exact ⟨l, _, rfl, rfl, fun _ _ => rfl⟩
  · rw [set_form hf, set_form hf]
    have hs : S.Same ((S.setW0 w).withLog l) := ⟨rfl, rfl, rfl, rfl, rfl, hw⟩
    rw [hs.effW]
    refine ⟨l, applyW w (S.effW f v), rfl, ?_, ?_⟩
    · rw [length_applyW, hw]
      exact (length_applyW _ _).symm
    · intro i h
      show _ = (applyW S.P.form.w0 (S.effW f v))[i]?
      rw [applyW_getElem?, applyW_getElem?, hi i h]

/-- The strategies that do not start from the previous solution. -/
def FreshStart (s : InitStrategy) : Prop := s = .external ∨ s = .allXcurrentW0Start

theorem rel_initGuess {S : Solver} (hs : FreshStart S.o.initStrategy) : S.Rel S.initGuess.1 := by
  rcases hs with hs | hs
  · unfold Solver.initGuess
    rw [hs]
    exact rel_refl S
  · unfold Solver.initGuess
    rw [hs]
    dsimp only
    rw [xcurrentLoop_run]
    refine ⟨S.log, _, rfl, length_applyW _ _, fun i hi => ?_⟩
    unfold Solver.initSlots at hi
    rw [if_neg (by rw [hs]; simp)] at hi
    rw [applyW_getElem?, lastW_none (i := i) fun q hq e => hi (by rw [← e]; exact xRun_pos hq)]
    cases S.P.form.w0[i]? <;> rfl

theorem solveFrom_w0 (orc : Oracle) (S : Solver) (ini : Solver × Except PyErr (List ℝ))
    (ho : ini.1.o.initStrategy ≠ .allXcurrentWoptPrev) :
    (S.solveFrom orc ini).1.P.form.w0 = ini.1.P.form.w0 := by
  rcases solveFrom_cases orc S ini with ⟨e, he⟩ | ⟨lam00, w0, b, -, -, -, -, he⟩
  · rw [he]
  · rw [he]
    generalize solveLoop orc ini.1 lam00 b S.o.maxIterHomotopy 0 _ = st
    obtain ⟨log, hf | ⟨hs, -⟩⟩ := finish_fst orc ini.1 lam00 st
    · rw [hf]
    · exact absurd hs ho

theorem rel_solveFrom (orc : Oracle) {S : Solver} (hs : FreshStart S.o.initStrategy)
    (ini : Solver × Except PyErr (List ℝ)) (hi : OnlyGuess S ini.1) (hr : S.Rel ini.1) :
    S.Rel (S.solveFrom orc ini).1 := by
  obtain ⟨h1, h2, h3, h4⟩ := solveFrom_only orc S ini hi
  have h5 := solveFrom_w0 orc S ini (by
    rw [hi.o]
    rcases hs with hs | hs <;> rw [hs] <;> simp)
  obtain ⟨l, w, e, hw, hwi⟩ := hr
  have e' : ini.1.P.form.w0 = w := by rw [e]; rfl
  refine ⟨(S.solveFrom orc ini).1.log, w, ?_, hw, hwi⟩
  generalize (S.solveFrom orc ini).1 = T at *
  obtain ⟨o, m, P, sm, log⟩ := T
  dsimp only at h1 h2 h3 h4 h5
  subst h1 h2 h3
  rw [h4]
  unfold Solver.withLog Solver.setW0
  dsimp only
  rw [h5, e']

theorem rel_solve (orc : Oracle) {S : Solver} (hs : FreshStart S.o.initStrategy) : S.Rel (S.solve orc).1 := by
  refine rel_solveFrom orc hs _ (initialize_onlyGuess S) ?_
  unfold Solver.initialize
  split
  · exact rel_refl S
  · rw [thenReturn_fst]; exact rel_initGuess hs

theorem rel_solveRoot (orc : Oracle) (rf : RootFinder) (um : UserModel) {S : Solver}
    (hs : FreshStart S.o.initStrategy) : S.Rel (S.solveRoot orc rf um).1 := by
  refine rel_solveFrom orc hs _ (initializeRoot_onlyGuess rf um S) ?_
  unfold Solver.initializeRoot
  split
  · exact rel_refl S
  · rw [thenReturn_fst]; exact rel_initGuess hs

theorem initGuess_rel {S T : Solver} (hs : FreshStart S.o.initStrategy) (h : S.Rel T) :
    T.initGuess.2 = S.initGuess.2 ∧
    (S.initGuess.2 = none → T.initGuess.1 = S.initGuess.1.withLog T.log) := by
  obtain ⟨l, w, rfl, hw, hi⟩ := h
  unfold Solver.initSlots at hi
  rcases hs with hs | hs
  · rw [if_pos hs] at hi
    have e : w = S.P.form.w0 := List.ext_getElem? fun i => hi i (by simp)
    subst e
    unfold Solver.initGuess
    have : ((S.setW0 S.P.form.w0).withLog l).o.initStrategy = .external := hs
    rw [this, hs]
    exact ⟨rfl, fun _ => rfl⟩
  · rw [if_neg (by rw [hs]; simp)] at hi
    unfold Solver.initGuess
    have : ((S.setW0 w).withLog l).o.initStrategy = .allXcurrentW0Start := hs
    rw [this, hs]
    dsimp only
    rw [xcurrentLoop_run, xcurrentLoop_run]
    have hw' : ((S.setW0 w).withLog l).P.form.w0.length = S.P.form.w0.length := hw
    rw [hw']
    refine ⟨rfl, fun hn => ?_⟩
    dsimp only at hn
    have key : applyW w (xRun S.P.form.w0.length S.m.x0 S.P.idx).1
        = applyW S.P.form.w0 (xRun S.P.form.w0.length S.m.x0 S.P.idx).1 := by
      apply List.ext_getElem?
      intro i
      rw [applyW_getElem?, applyW_getElem?]
      by_cases him : i ∈ S.P.slots .x
      · obtain ⟨a, ha⟩ := lastW_some (xRun_all hn him)
        rw [ha]
        by_cases hl : i < w.length
        · rw [List.getElem?_eq_getElem hl, List.getElem?_eq_getElem (hw ▸ hl)]
          rfl
        · rw [List.getElem?_eq_none (not_lt.1 hl), List.getElem?_eq_none (by rw [← hw]; exact not_lt.1 hl)]
      · rw [hi i him]
    show (S.setW0 (applyW w (xRun S.P.form.w0.length S.m.x0 S.P.idx).1)).withLog l = _
    rw [key]
    rfl

/-- The result of `solve` does not depend on the record nor on what every initialisation overwrites. -/
theorem solve_rel {orc : Oracle} (hd : ∀ log c, orc.sol (log ++ [c]) = orc.sol [c]) {S T : Solver}
    (hs : FreshStart S.o.initStrategy) (h : S.Rel T) : (T.solve orc).2 = (S.solve orc).2 := by
  have hlog : ∀ l, ((S.withLog l).solve orc).2 = (S.solve orc).2 := by
    intro l
    have h1 := congrArg Prod.snd (solve_log hd S l)
    have h2 := congrArg Prod.snd (solve_log hd S S.log)
    exact h1.trans h2.symm
  rw [← hlog T.log]
  obtain ⟨hg2, hg1⟩ := initGuess_rel hs h
  have hm : T.m = S.m := by obtain ⟨l, w, rfl, -⟩ := h; rfl
  have ho : T.o = S.o := by obtain ⟨l, w, rfl, -⟩ := h; rfl
  unfold Solver.solve
  rw [initialize_log]
  unfold Solver.initialize
  rw [hm]
  cases S.m.computeLambda00 with
  | error e => rfl
  | ok lam00 =>
    dsimp only
    unfold thenReturn
    rw [hg2]
    cases hn : S.initGuess.2 with
    | some e => rfl
    | none =>
      dsimp only
      rw [hg1 hn]
      unfold Solver.solveFrom
      rw [ho]
      rfl

end Nosnoc
