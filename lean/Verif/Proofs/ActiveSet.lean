import Verif.Proofs.Lam00
/-
Helper lemmas: the bounds and guess of a solve with `fix_active_set_fe0`.
-/
namespace Nosnoc

theorem mapM_append_ok {α β : Type} {f : α → Except PyErr β} {l l' : List α} {r r' : List β}
    (h : l.mapM f = .ok r) (h' : l'.mapM f = .ok r') : (l ++ l').mapM f = .ok (r ++ r') := by
  rw [mapM_eq_ok] at *
  exact List.rel_append h h'

/-- Positions of the symbols selected by a condition on the values. -/
theorem select_ok {α : Type} {w : List Sym} (sym : α → Sym) (v : α → ℝ) (c : ℝ) :
    ∀ (L : List α) (pre R : List Nat), Names w R (L.map sym) →
      ∃ ix, (((L.map v).zipIdx pre.length).filterMap fun q =>
          if c < q.1 then some q.2 else none).mapM (listGet (pre ++ R)) = .ok ix ∧
        Names w ix ((L.filter fun a => decide (c < v a)).map sym) := by
  intro L
  induction L with
  | nil =>
    intro pre R _
    exact ⟨[], rfl, .nil⟩
  | cons a L ih =>
    intro pre R hR
    cases hR with
    | @cons r s R' _ hr hR =>
      obtain ⟨ix, h1, h2⟩ := ih (pre ++ [r]) R' hR
      rw [List.append_assoc] at h1
      rw [List.length_append] at h1
      by_cases hc : c < v a
      · refine ⟨r :: ix, ?_, ?_⟩
        · rw [List.map_cons, List.zipIdx_cons, List.filterMap_cons_some (b := pre.length)
            (by simp [hc])]
          rw [mapM_eq_ok]
          rw [mapM_eq_ok] at h1
          refine .cons (listGet_eq_ok.2 (by simp)) h1
        · rw [List.filter_cons_of_pos (by simpa using hc)]
          exact .cons hr h2
      · refine ⟨ix, ?_, ?_⟩
        · rw [List.map_cons, List.zipIdx_cons, List.filterMap_cons_none (by simp [hc])]
          exact h1
        · rw [List.filter_cons_of_neg (by simpa using hc)]
          exact h2

section
variable {colloc : IrkScheme → Nat → List ℝ} {o : Opts} {um : UserModel} {uo : Option UserOcp}
  {po : PreOpts} {m : PreModel} {oc : PreOcp} {P : Problem} {orc : Oracle} {S : Solver}

/-- Regions of all systems. -/
def regionList (um : UserModel) : List (Nat × Nat) :=
  (List.range um.nSys).flatMap fun s => (List.range (um.Fmat s).nCols).map fun i => (s, i)

/-- The convex multipliers of the first element whose initial multiplier exceeds `c`. -/
noncomputable def fixedTheta (um : UserModel) (nS : Nat) (lam : Nat → Nat → ℝ) (c : ℝ) : List Sym :=
  (List.range nS).flatMap fun j =>
    ((regionList um).filter fun q => decide (c < lam q.1 q.2)).map fun q =>
      .st2 .theta 0 0 j q.1 q.2

theorem mem_fixedTheta {nS : Nat} {lam : Nat → Nat → ℝ} {c : ℝ} {t : Sym} :
    t ∈ fixedTheta um nS lam c ↔ ∃ j < nS, ∃ s < um.nSys, ∃ i < (um.Fmat s).nCols,
      c < lam s i ∧ t = .st2 .theta 0 0 j s i := by
  simp only [fixedTheta, regionList, List.mem_flatMap, List.mem_range, List.mem_map,
    List.mem_filter, decide_eq_true_eq]
  constructor
  · rintro ⟨j, hj, ⟨s, i⟩, ⟨⟨s', hs, i', hi, he⟩, hc⟩, rfl⟩
    cases he
    exact ⟨j, hj, s, hs, i, hi, hc, rfl⟩
  · rintro ⟨j, hj, s, hs, i, hi, hc, rfl⟩
    exact ⟨j, hj, (s, i), ⟨⟨s, hs, i, hi, rfl⟩, hc⟩, rfl⟩

theorem lam00List_stewart (x z p : List ℝ) :
    um.lam00List .stewart x z p = (regionList um).map fun q => um.lam00St x z p q.1 q.2 := by
  simp [UserModel.lam00List, regionList, List.map_flatMap, Function.comp_def]

theorem activeZero_ok (h : Setup colloc o um uo po m oc P) (hi : Inv po m P S)
    (hps : po.pss = .stewart) (x z p : List ℝ) :
    ∃ ix, activeZero S (um.lam00List po.pss x z p) = .ok ix ∧
      Names P.form.w ix (fixedTheta um po.nS (um.lam00St x z p) (10 * po.compTol)) := by
  obtain ⟨-, -, -, -, -, -, d7, d8, -⟩ := h.dims
  have hb := h.built
  obtain ⟨row, hrow, hR⟩ := forall₂_range_get (C02_index_lists_name h).fe
    (Nat.pos_of_ne_zero hb.ok.primal.stages)
  obtain ⟨fi, hfi, hF⟩ := forall₂_range_get hR
    (hb.ok.primal.nfe 0 (Nat.pos_of_ne_zero hb.ok.primal.stages)).2
  have hth := hF.theta
  rw [hps, lam00List_stewart]
  have hsel : ∀ j < po.nS, ∃ ix,
      (do
        let r ← listGet (fi.two .theta) j
        ((((regionList um).map fun (q : Nat × Nat) => um.lam00St x z p q.1 q.2).zipIdx).filterMap fun (q : ℝ × Nat) =>
          if 10 * S.o.compTol < q.1 then some q.2 else none).mapM (listGet r.flatten)) = .ok ix ∧
      Names P.form.w ix (((regionList um).filter fun q =>
        decide (10 * po.compTol < um.lam00St x z p q.1 q.2)).map fun q =>
          .st2 .theta 0 0 j q.1 q.2) := by
    intro j hj
    obtain ⟨r, hr, hrN⟩ := forall₂_map_get hth hj
    have hN : Names P.form.w r.flatten
        ((regionList um).map fun q => .st2 .theta 0 0 j q.1 q.2) := by
      have := Names.flatten hrN
      have e : ((List.range m.dims.nSys).map fun s =>
          blk (if po.pss = .stewart then m.dims.nF s else 0) (.st2 .theta 0 0 j s)).flatten
          = (regionList um).map fun q => .st2 .theta 0 0 j q.1 q.2 := by
        rw [d7, ← List.flatMap_def, regionList, List.map_flatMap]
        apply List.flatMap_congr
        intro s hs
        rw [if_pos hps, d8 hps s (List.mem_range.1 hs), blk, List.map_map]
        rfl
      rw [← e]; exact this
    obtain ⟨ix, h1, h2⟩ := select_ok (fun q : Nat × Nat => .st2 .theta 0 0 j q.1 q.2)
      (fun q => um.lam00St x z p q.1 q.2) (10 * po.compTol) (regionList um) [] r.flatten hN
    refine ⟨ix, ?_, h2⟩
    rw [bind_eq_ok]
    refine ⟨r, listGet_eq_ok.2 hr, ?_⟩
    rw [hi.opts]
    exact h1
  choose f hf1 hf2 using hsel
  have hm : ∀ n ≤ po.nS, ∃ l : List (List Nat), (List.range n).mapM (fun i => do
      let r ← listGet (fi.two .theta) i
      ((((regionList um).map fun (q : Nat × Nat) => um.lam00St x z p q.1 q.2).zipIdx).filterMap fun (q : ℝ × Nat) =>
          if 10 * S.o.compTol < q.1 then some q.2 else none).mapM (listGet r.flatten)) = .ok l ∧
      Names P.form.w l.flatten (fixedTheta um n (um.lam00St x z p) (10 * po.compTol)) := by
    intro n
    induction n with
    | zero => intro _; exact ⟨[], rfl, .nil⟩
    | succ n ih =>
      intro hn
      obtain ⟨l, h1, h2⟩ := ih (by omega)
      refine ⟨l ++ [f n (by omega)], ?_, ?_⟩
      · rw [List.range_succ]
        refine mapM_append_ok h1 ?_
        rw [mapM_eq_ok]
        exact .cons (hf1 n (by omega)) .nil
      · rw [List.flatten_append]
        unfold fixedTheta at h2 ⊢
        rw [List.range_succ, List.flatMap_append]
        refine h2.append ?_
        have := hf2 n (by omega)
        simpa using this
  obtain ⟨l, h1, h2⟩ := hm po.nS le_rfl
  refine ⟨l.flatten, ?_, h2⟩
  unfold activeZero
  rw [bind_eq_ok]
  refine ⟨row, listGet_eq_ok.2 (by rw [hi.idx]; exact hrow), ?_⟩
  rw [bind_eq_ok]
  refine ⟨fi, listGet_eq_ok.2 hfi, ?_⟩
  rw [bind_eq_ok]
  refine ⟨l, ?_, rfl⟩
  rw [hi.opts] at h1 ⊢
  exact h1

open Classical in
/-- The guess and bounds of the homotopy loop. -/
theorem activeSet_ok (h : Setup colloc o um uo po m oc P) (hi : Inv po m P S)
    (x z p : List ℝ) {g : Sym → ℝ} {lb ub : Sym → EReal} (hg : S.P.form.w0 = P.form.w.map g)
    (hl : P.form.lbw = P.form.w.map lb) (hu : P.form.ubw = P.form.w.map ub) :
    let fixed := fun t => po.fixActiveSetFe0 = true ∧ po.pss = .stewart ∧
      t ∈ fixedTheta um po.nS (um.lam00St x z p) (10 * po.compTol)
    activeSet S (um.lam00List po.pss x z p) = .ok
      (P.form.w.map fun t => if fixed t then 0 else g t,
        ⟨P.form.w.map fun t => if fixed t then 0 else lb t,
          P.form.w.map fun t => if fixed t then 0 else ub t⟩) := by
  intro fixed
  have hd := (C01_index_lists_partition h).2
  unfold activeSet
  rw [hi.opts]
  by_cases hc : po.fixActiveSetFe0 = true ∧ po.pss = .stewart
  · rw [if_pos hc, bind_eq_ok]
    obtain ⟨ix, h1, h2⟩ := activeZero_ok h hi hc.2 x z p
    refine ⟨ix, h1, ?_⟩
    have e0 : List.replicate ix.length (0 : ℝ)
        = (fixedTheta um po.nS (um.lam00St x z p) (10 * po.compTol)).map fun _ => 0 := by
      rw [h2.length, List.map_const']
    rw [hg, hi.lbw, hi.ubw, hl, hu, e0, writes_map hd _ h2, setBounds_map hd _ h2,
      setBounds_map hd _ h2]
    have e : ∀ t, fixed t ↔ t ∈ fixedTheta um po.nS (um.lam00St x z p) (10 * po.compTol) :=
      fun t => ⟨fun h => h.2.2, fun h => ⟨hc.1, hc.2, h⟩⟩
    simp only [e]
  · rw [if_neg hc]
    have e : ∀ t, ¬ fixed t := fun t h => hc ⟨h.1, h.2.1⟩
    rw [hg, hi.lbw, hi.ubw, hl, hu]
    simp only [e, if_false]

end

end Nosnoc
