import Verif.Proofs.Rk4Guess
import Verif.Props.Tables
import Verif.Witness.Fall
/-
C90: the RK4_SMOOTHENED initialisation.
-/
namespace Nosnoc

section
variable {colloc : IrkScheme → Nat → List ℝ} {o : Opts} {um : UserModel} {uo : Option UserOcp}
  {po : PreOpts} {m : PreModel} {oc : PreOcp} {P : Problem} {orc : Oracle} {S : Solver}

theorem mem_elemRows {d : Dims} {n : Nat} (hn : 0 < n) {L : List Nat} {t : Sym} :
    t ∈ (L.flatMap (elemRows d n)).flatten ↔ ∃ e ∈ L, ∃ j < n,
      (∃ i < d.nX, t = .st1 .x 0 e j i) ∨ ∃ s < d.nSys,
        (∃ i < d.nF s, t = .st2 .theta 0 e j s i) ∨ (∃ i < d.nF s, t = .st2 .lam 0 e j s i) ∨
        t = .st2 .mu 0 e j s 0 := by
  have hb : ∀ (k : Nat) (f : Nat → Sym), t ∈ blk k f ↔ ∃ i < k, t = f i := by
    intro k f
    simp only [blk, List.mem_map, List.mem_range]
    exact exists_congr fun i => and_congr_right fun _ => eq_comm
  simp only [List.mem_flatten, List.mem_flatMap]
  constructor
  · rintro ⟨r, ⟨e, he, hr⟩, ht⟩
    refine ⟨e, he, ?_⟩
    unfold elemRows at hr
    rcases List.mem_append.1 hr with hr | hr
    · obtain ⟨rs, h1, h2⟩ := List.mem_flatten.1 hr
      obtain ⟨j, hj, rfl⟩ := List.mem_map.1 h1
      refine ⟨j, List.mem_range.1 hj, ?_⟩
      unfold pointRows at h2
      rcases List.mem_cons.1 h2 with rfl | h2
      · exact .inl ((hb _ _).1 ht)
      · obtain ⟨rs, h1, h3⟩ := List.mem_flatten.1 h2
        obtain ⟨s, hs, rfl⟩ := List.mem_map.1 h1
        refine .inr ⟨s, List.mem_range.1 hs, ?_⟩
        simp only [List.mem_cons, List.not_mem_nil, or_false] at h3
        rcases h3 with rfl | rfl | rfl
        · exact .inl ((hb _ _).1 ht)
        · exact .inr (.inl ((hb _ _).1 ht))
        · obtain ⟨i, hi, rfl⟩ := (hb _ _).1 ht
          obtain rfl : i = 0 := by omega
          exact .inr (.inr rfl)
    · rw [List.mem_singleton] at hr
      subst hr
      exact ⟨n - 1, by omega, .inl ((hb _ _).1 ht)⟩
  · rintro ⟨e, he, j, hj, h⟩
    have hin : ∀ r ∈ pointRows d e j, t ∈ r → ∃ l, (∃ a ∈ L, l ∈ elemRows d n a) ∧ t ∈ l := by
      intro r hr ht
      refine ⟨r, ⟨e, he, ?_⟩, ht⟩
      unfold elemRows
      exact List.mem_append_left _ (List.mem_flatten.2 ⟨_, List.mem_map.2 ⟨j, List.mem_range.2 hj, rfl⟩, hr⟩)
    have hin2 : ∀ s < d.nSys, ∀ r ∈ [blk (d.nF s) (Sym.st2 .theta 0 e j s),
        blk (d.nF s) (Sym.st2 .lam 0 e j s), blk 1 (Sym.st2 .mu 0 e j s)], t ∈ r →
        ∃ l, (∃ a ∈ L, l ∈ elemRows d n a) ∧ t ∈ l := by
      intro s hs r hr ht
      refine hin r ?_ ht
      unfold pointRows
      exact List.mem_cons_of_mem _ (List.mem_flatten.2 ⟨_, List.mem_map.2 ⟨s, List.mem_range.2 hs, rfl⟩, hr⟩)
    rcases h with ⟨i, hi, rfl⟩ | ⟨s, hs, h⟩
    · exact hin _ List.mem_cons_self ((hb _ _).2 ⟨i, hi, rfl⟩)
    · rcases h with ⟨i, hi, rfl⟩ | ⟨i, hi, rfl⟩ | rfl
      · exact hin2 s hs _ (by simp) ((hb _ _).2 ⟨i, hi, rfl⟩)
      · exact hin2 s hs (blk (d.nF s) (Sym.st2 .lam 0 e j s)) (by simp) ((hb _ _).2 ⟨i, hi, rfl⟩)
      · exact hin2 s hs (blk 1 (Sym.st2 .mu 0 e j s)) (by simp) ((hb _ _).2 ⟨0, by omega, rfl⟩)

/-- The whole initialisation, for any collocation points `c` the options hold. -/
theorem rk4_initialize (h : Setup colloc o um uo po m oc P)
    (hS : Reachable colloc o um uo orc S) (hr : Ready um S)
    (hs : o.initStrategy = .rk4Smoothened)
    (hst : o.pss = .stewart) (hz0 : um.nZ = 0) (hrep : o.irkRep ≠ .differential)
    (hsign : ∀ s < um.nSys, (um.Smat s).IsSign) (hso : um.StateOnly)
    (hF : ∀ s < um.nSys, 0 < (um.Fmat s).nCols)
    (hl1 : po.timePts.getLast? = some 1) (hlen : o.nS ≤ po.timePts.length)
    (hfe : o.nFe ≤ nfe po 0) :
    ∃ (S' : Solver) (lam00 p0 : List ℝ) (mu : List ℝ → Nat → ℝ),
      S.initialize = (S', .ok lam00) ∧ S.m.pVal[0]? = some p0 ∧
      (∀ x, x.length = um.nX → ∀ s < um.nSys,
        (∃ i < (um.Fmat s).nCols, um.gVal s i x [] p0 ≤ -mu x s) ∧
        ∃ i < (um.Fmat s).nCols, -mu x s ≤ um.gVal s i x [] p0) ∧
      Wrote S S' (rk4Guess um o.smoothing p0 o.nFe (fun e j =>
        (smoothTraj um o.smoothing p0 (o.terminalTime / (o.nStages * o.nFe)) (po.timePts.take o.nS)
          o.nFe S.m.x0).getD (e * o.nS + j + 1) []) mu) := by
  have hi := hS.inv h
  obtain ⟨d1, -, d3, -, d5, d6, d7, d8, d9⟩ := h.dims
  obtain ⟨S0, hS0, hsm⟩ := hS.smooth
  have hps : po.pss = .stewart := by rw [h.opts]; exact hst
  have hir : po.irkRep ≠ .differential := by rw [h.opts]; exact hrep
  have enS : po.nS = o.nS := by rw [h.opts]
  have enFe : po.nFe = o.nFe := by rw [h.opts]
  have enT : po.terminalTime = o.terminalTime := by rw [h.opts]
  have enN : po.nStages = o.nStages := by rw [h.opts]
  have hnS : 0 < po.nS := by rw [enS]; exact h.nS
  have hrbe : po.rbe = true := by
    obtain ⟨t, h1, h2⟩ := h.built.opts.rbe
    rw [hl1] at h1
    injection h1 with h1
    subst h1
    rw [h2, decide_eq_true_iff]
    norm_num
  obtain ⟨sf, hsf⟩ : ∃ sf, S0.smooth = some sf := by
    have h0 := hS0
    unfold Solver.create at h0
    rw [h.ok] at h0
    simp only [ok_bind, bind_eq_ok] at h0
    obtain ⟨sm, h1, h2⟩ := h0
    injection h2 with h2
    subst h2
    unfold smoothFor at h1
    rw [if_pos (by rw [h.opts]; exact hs), map_eq_ok] at h1
    obtain ⟨sf', h3, h4⟩ := h1
    exact ⟨sf', h4.symm⟩
  obtain ⟨p0, hp0, hpl, hc⟩ := computeLambda00_ok h hi hr.x0
  have hz : um.SwitchNoZ := fun s j x z z' p => hso.1 s j x z z' p p
  have hmul := fun (x : List ℝ) (hx : x.length = um.nX) =>
    C27_smoothed_multipliers h hs hS0 hsf hsign hz hF [] hx hpl
  choose! mu hmu using fun (x : List ℝ) (hx : x.length = um.nX) => (hmul x hx).2.2
  have hrhs := fun (x : List ℝ) (hx : x.length = um.nX) =>
    C27_smoothed_rhs h hs hS0 hsf hsign hso [] [] p0 [] hx
  -- the right-hand side used by the loop
  have hfg : ∀ x : List ℝ, x.length = um.nX →
      evalVec (sf.fx.outs.map fun e env => e (rebind sf.fx.ins.flatten (x.map const) env)) (fun _ => 0)
        = smoothRhs um o.smoothing p0 x := by
    intro x hx
    have h1 := hrhs x hx
    unfold CFun.num CFun.call at h1
    rw [bind_eq_ok] at h1
    obtain ⟨v, h2, h3⟩ := h1
    split at h2
    swap
    · cases h2
    injection h2 with h2
    injection h3 with h3
    rw [← h2] at h3
    simpa [CFun.app, smoothRhs] using h3
  have hgl : ∀ x : List ℝ, x.length = um.nX → (smoothRhs um o.smoothing p0 x).length = um.nX := by
    intro x _
    simp [smoothRhs]
  set F : List ℝ → List ℝ := fun x => evalVec (sf.fx.outs.map fun e env =>
    e (rebind sf.fx.ins.flatten (x.map const) env)) (fun _ => 0) with hFdef
  set c := po.timePts.take o.nS with hcdef
  have hcl : c.length = o.nS := by rw [hcdef, List.length_take]; omega
  set dt := o.terminalTime / (o.nStages * o.nFe) with hdt
  have hgrid : rk4Grid po = .ok (stageSteps dt c) := by
    unfold rk4Grid
    have : (List.range po.nS).mapM (listGet po.timePts) = .ok c := by
      rw [mapM_ok (g := fun i => po.timePts.getD i 0)]
      · congr 1
        rw [hcdef, enS]
        apply List.ext_getElem
        · simp [hlen]
        · intro i h1 h2
          simp only [List.length_map, List.length_range] at h1
          simp [List.getD_eq_getElem?_getD, List.getElem?_eq_getElem (show i < po.timePts.length by omega)]
      · intro i hi
        have hi := List.mem_range.1 hi
        rw [listGet_eq_ok, List.getD_eq_getElem?_getD,
          List.getElem?_eq_getElem (show i < po.timePts.length by omega)]
        rfl
    rw [this, ok_bind, enT, enN, enFe]
    rfl
  have hsl : (stageSteps dt c).length = o.nS := by simp [stageSteps, hcl]
  -- states
  have hstl : ∀ e, (rk4Start F (stageSteps dt c) S.m.x0 e).length = um.nX := by
    intro e
    induction e with
    | zero => exact hr.x0
    | succ e ih =>
      obtain ⟨h1, h2⟩ := rk4_congr hgl hfg _ ih (stageSteps dt c)
      have h3 := rk4Start_succ F (stageSteps dt c) S.m.x0 e
      rw [h1] at h3
      exact h2 _ (List.mem_of_getLast? h3)
  set X : Nat → Nat → List ℝ := fun e j =>
    (rk4OnTimegrid F (rk4Start F (stageSteps dt c) S.m.x0 e) (stageSteps dt c)).getD (j + 1) [] with hX
  have hXs : ∀ e, ∀ j < po.nS,
      (rk4OnTimegrid F (rk4Start F (stageSteps dt c) S.m.x0 e) (stageSteps dt c))[j + 1]?
        = some (X e j) := by
    intro e j hj
    have := (C22_length F (rk4Start F (stageSteps dt c) S.m.x0 e) (stageSteps dt c)).1
    show _ = some (List.getD _ _ _)
    rw [List.getD_eq_getElem?_getD, List.getElem?_eq_getElem (by omega)]
    rfl
  have hXl : ∀ e, ∀ j < po.nS, (X e j).length = um.nX := by
    intro e j hj
    obtain ⟨h1, h2⟩ := rk4_congr hgl hfg _ (hstl e) (stageSteps dt c)
    have h3 := hXs e j hj
    rw [h1] at h3
    exact h2 _ (List.mem_of_getElem? h3)
  have hend : ∀ e, rk4Start F (stageSteps dt c) S.m.x0 (e + 1) = X e (po.nS - 1) := by
    intro e
    have h1 := rk4Start_succ F (stageSteps dt c) S.m.x0 e
    have h2 := (C22_length F (rk4Start F (stageSteps dt c) S.m.x0 e) (stageSteps dt c)).1
    rw [List.getLast?_eq_getElem?, h2, hsl] at h1
    have h3 := hXs e (po.nS - 1) (by omega)
    rw [show po.nS - 1 + 1 = o.nS + 1 - 1 by omega, h1] at h3
    injection h3
  obtain ⟨g, hD⟩ := h.setData hS hr
  -- the elements
  obtain ⟨row, hrow, hnames⟩ := forall₂_get hD.spec.fe (i := 0)
    (b := 0) (by rw [List.getElem?_range (Nat.pos_of_ne_zero h.built.ok.primal.stages)])
  have hrl := hnames.length_eq
  rw [List.length_range] at hrl
  have hfis : (List.range po.nFe).mapM (listGet row) = .ok (row.take o.nFe) := by
    rw [mapM_eq_ok, List.forall₂_iff_get]
    refine ⟨by simp; omega, fun i h1 h2 => ?_⟩
    simp only [List.length_range] at h1
    rw [listGet_eq_ok]
    simp
  have hnm : List.Forall₂ (fun fi e => FENames po m.dims S.P.form.w 0 e fi) (row.take o.nFe)
      (List.range' 0 o.nFe) := by
    have h1 := List.forall₂_take o.nFe hnames
    rw [List.take_range, Nat.min_eq_left hfe, List.range_eq_range'] at h1
    exact h1
  obtain ⟨l, hl2, hl3⟩ := rk4Loop_ok (S := S) (sf := sf) (um := um) (sm := o.smoothing) (mu := mu)
    (f := F) (p0 := p0) (grid := stageSteps dt c) (start := rk4Start F (stageSteps dt c) S.m.x0)
    (X := X) hi.opts hnS hl1 hir hrbe d1 (rk4Start_succ F _ _) hXs hXl hend
    (fun e j hj fi hfi => rk4Point_ok h hi hst hz0 hrep hpl hj (hXl e j hj)
      (hmul _ (hXl e j hj)).2.1 (hmu _ (hXl e j hj)).1 hfi) hnm
  have hw : rk4Writes S = .ok l := by
    unfold rk4Writes
    have e1 : optGet (some S.smooth.toList) 0 = .ok sf := by
      rw [hsm, hsf]
      rfl
    have e2 : listGet S.P.idx 0 = .ok row := listGet_eq_ok.2 hrow
    rw [e1, ok_bind, hi.opts, hgrid, ok_bind, listGet_eq_ok.2 hp0, ok_bind, e2, ok_bind, hfis, ok_bind,
      hrhs _ hr.x0, ok_bind]
    exact hl2
  have hg : S.initGuess = (S.setW0 (S.P.form.w.map fun t =>
      if t ∈ ((List.range' 0 o.nFe).flatMap (elemRows m.dims po.nS)).flatten
        then rk4Val um o.smoothing p0 X mu t else g t), none) := by
    unfold Solver.initGuess
    have : S.o.initStrategy = .rk4Smoothened := by rw [hi.opts, h.opts]; exact hs
    rw [this]
    simp only [hw]
    unfold Solver.write
    rw [hD.guess, hl3.npAssignAll hD.nodup]
  obtain ⟨p1, hp1, -, hini⟩ := initialize_ok h hi hr.x0 hg
  refine ⟨_, _, p0, mu, hini, hp0, fun x hx s hs' => (hmu x hx).2.1 s hs', wrote_of_map hD.guess ?_⟩
  -- the written values
  have htr : ∀ e < o.nFe, ∀ j < po.nS, (smoothTraj um o.smoothing p0 dt c o.nFe S.m.x0).getD
      (e * o.nS + j + 1) [] = X e j := by
    intro e he j hj
    unfold smoothTraj
    rw [← (rk4_congr hgl hfg _ hr.x0 _).1, List.getD_eq_getElem?_getD]
    have := (rk4_replicate F (stageSteps dt c) S.m.x0 o.nFe).2 e he j (by omega)
    rw [hsl] at this
    rw [this, hXs e j hj]
    rfl
  have hlp : ∀ k e, nLamPts po k e = po.nS := by
    intro k e
    unfold nLamPts extraPt
    simp [hrbe]
  intro t ht
  have hmem := fun t => mem_elemRows (d := m.dims) hnS (L := List.range' 0 o.nFe) (t := t)
  rcases hD.var t ht with hv | ⟨k, e, i, rfl⟩ | ⟨i, rfl⟩
  · have hno : ∀ t, (∀ e j i, t ≠ Sym.st1 .x 0 e j i) → (∀ e j s i, t ≠ Sym.st2 .theta 0 e j s i) →
        (∀ e j s i, t ≠ Sym.st2 .lam 0 e j s i) → (∀ e j s i, t ≠ Sym.st2 .mu 0 e j s i) →
        t ∉ ((List.range' 0 o.nFe).flatMap (elemRows m.dims po.nS)).flatten := by
      intro t h1 h2 h3 h4
      rw [hmem]
      rintro ⟨e, -, j, -, ⟨i, -, h⟩ | ⟨s, -, ⟨i, -, h⟩ | ⟨i, -, h⟩ | h⟩⟩
      · exact h1 _ _ _ h
      · exact h2 _ _ _ _ h
      · exact h3 _ _ _ _ h
      · exact h4 _ _ _ _ h
    have hin : ∀ e, e ∈ List.range' 0 o.nFe ↔ e < o.nFe := by
      intro e
      simp [List.mem_range'_1]
    cases t with
    | st1 f k e j i =>
      cases f with
      | x =>
        obtain ⟨-, -, hj, hi'⟩ := hv
        cases k with
        | succ k => rw [if_neg (hno _ (by simp) (by simp) (by simp) (by simp))]; rfl
        | zero =>
          by_cases he : e < o.nFe
          · rw [if_pos ((hmem _).2 ⟨e, (hin e).2 he, j, hj, .inl ⟨i, hi', rfl⟩⟩)]
            simp only [rk4Guess, rk4Val, if_pos he, htr e he j hj]
          · rw [if_neg]
            · simp only [rk4Guess, if_neg he]
            · rw [hmem]
              rintro ⟨e', he', j', -, ⟨i', -, h⟩ | ⟨s, -, ⟨i', -, h⟩ | ⟨i', -, h⟩ | h⟩⟩ <;> cases h
              exact he ((hin e).1 he')
      | v => rw [if_neg (hno _ (by simp) (by simp) (by simp) (by simp))]; rfl
      | z => rw [if_neg (hno _ (by simp) (by simp) (by simp) (by simp))]; rfl
    | st2 f k e j s i =>
      cases f with
      | theta =>
        obtain ⟨-, -, hj, hs', hi'⟩ := hv
        cases k with
        | succ k => rw [if_neg (hno _ (by simp) (by simp) (by simp) (by simp))]; rfl
        | zero =>
          by_cases he : e < o.nFe
          · rw [if_pos ((hmem _).2 ⟨e, (hin e).2 he, j, hj, .inr ⟨s, hs', .inl ⟨i, hi', rfl⟩⟩⟩)]
            simp only [rk4Guess, rk4Val, if_pos he, htr e he j hj]
          · rw [if_neg]
            · simp only [rk4Guess, if_neg he]
            · rw [hmem]
              rintro ⟨e', he', j', -, ⟨i', -, h⟩ | ⟨s, -, ⟨i', -, h⟩ | ⟨i', -, h⟩ | h⟩⟩ <;> cases h
              exact he ((hin e).1 he')
      | lam =>
        obtain ⟨-, -, hj, hs', hi'⟩ := hv
        rw [hlp] at hj
        cases k with
        | succ k => rw [if_neg (hno _ (by simp) (by simp) (by simp) (by simp))]; rfl
        | zero =>
          by_cases he : e < o.nFe
          · rw [if_pos ((hmem _).2 ⟨e, (hin e).2 he, j, hj, .inr ⟨s, hs', .inr (.inl ⟨i, hi', rfl⟩)⟩⟩)]
            simp only [rk4Guess, rk4Val, if_pos he, htr e he j hj]
          · rw [if_neg]
            · simp only [rk4Guess, if_neg he]
            · rw [hmem]
              rintro ⟨e', he', j', -, ⟨i', -, h⟩ | ⟨s, -, ⟨i', -, h⟩ | ⟨i', -, h⟩ | h⟩⟩ <;> cases h
              exact he ((hin e).1 he')
      | mu =>
        obtain ⟨-, -, hj, hs', rfl⟩ := hv
        rw [hlp] at hj
        cases k with
        | succ k => rw [if_neg (hno _ (by simp) (by simp) (by simp) (by simp))]; rfl
        | zero =>
          by_cases he : e < o.nFe
          · rw [if_pos ((hmem _).2 ⟨e, (hin e).2 he, j, hj, .inr ⟨s, hs', .inr (.inr rfl)⟩⟩)]
            simp only [rk4Guess, rk4Val, if_pos he, htr e he j hj]
          · rw [if_neg]
            · simp only [rk4Guess, if_neg he]
            · rw [hmem]
              rintro ⟨e', he', j', -, ⟨i', -, h⟩ | ⟨s, -, ⟨i', -, h⟩ | ⟨i', -, h⟩ | h⟩⟩ <;> cases h
              exact he ((hin e).1 he')
      | _ => rw [if_neg (hno _ (by simp) (by simp) (by simp) (by simp))]; rfl
    | _ => rw [if_neg (hno _ (by simp) (by simp) (by simp) (by simp))]; rfl
  · rw [if_neg]
    · rfl
    · rw [hmem]; rintro ⟨e, -, j, -, ⟨i, -, h⟩ | ⟨s, -, ⟨i, -, h⟩ | ⟨i, -, h⟩ | h⟩⟩ <;> cases h
  · rw [if_neg]
    · rfl
    · rw [hmem]; rintro ⟨e, -, j, -, ⟨i, -, h⟩ | ⟨s, -, ⟨i, -, h⟩ | ⟨i, -, h⟩ | h⟩⟩ <;> cases h

/-- C90: with RK4_SMOOTHENED, Stewart mode, Radau and DIFFERENTIAL_LIFT_X, `initialize` succeeds and
writes, in the first `N_finite_elements` elements of the first control stage, the state of the smoothed
system at stage `j` of element `e` (classical RK4 steps from stage point to stage point, element length
`T / (N_stages N_fe)`), the smoothed weights `θ`, the multipliers `λ` of the switching conditions there
and a `μ` that is minus a number between the smallest and the largest indicator value; nothing else
changes.  Missing: other representations (see below) and elements of further control stages. -/
theorem C90_rk4_guess_partial (h : Setup colloc o um uo po m oc P)
    (hS : Reachable colloc o um uo orc S) (hr : Ready um S)
    (hs : o.initStrategy = .rk4Smoothened) (hst : o.pss = .stewart) (hz0 : um.nZ = 0)
    (hrep : o.irkRep = .differentialLiftX) (hrad : o.scheme = .radauIIA)
    (hsign : ∀ s < um.nSys, (um.Smat s).IsSign) (hso : um.StateOnly)
    (hF : ∀ s < um.nSys, 0 < (um.Fmat s).nCols) (hfe : o.nFe ≤ nfe po 0) :
    ∃ (t : Tableau) (S' : Solver) (lam00 p0 : List ℝ) (mu : List ℝ → Nat → ℝ),
      generateButcher o.nS .radauIIA = .ok t ∧
      S.initialize = (S', .ok lam00) ∧ S.m.pVal[0]? = some p0 ∧
      (∀ x, x.length = um.nX → ∀ s < um.nSys,
        (∃ i < (um.Fmat s).nCols, um.gVal s i x [] p0 ≤ -mu x s) ∧
        ∃ i < (um.Fmat s).nCols, -mu x s ≤ um.gVal s i x [] p0) ∧
      Wrote S S' (rk4Guess um o.smoothing p0 o.nFe (fun e j =>
        (smoothTraj um o.smoothing p0 (o.terminalTime / (o.nStages * o.nFe))
          (t.c.map fun q : ℚ => (q : ℝ)) o.nFe S.m.x0).getD (e * o.nS + j + 1) []) mu) := by
  obtain ⟨t, ht, -, -, htp⟩ := h.built.opts.diff (by rw [hrep]; decide)
  rw [hrad] at ht
  have hl := (C20_valid ht).nodes
  have h1 := (C20_radau_stiffly_accurate ht).2
  have hlen : po.timePts.length = o.nS := by rw [htp, List.length_map, hl]
  obtain ⟨S', lam00, p0, mu, g1, g2, g3, g4⟩ := rk4_initialize h hS hr hs hst hz0
    (by rw [hrep]; decide) hsign hso hF (by rw [htp, List.getLast?_map, h1]; simp) hlen.ge hfe
  refine ⟨t, S', lam00, p0, mu, ht, g1, g2, g3, ?_⟩
  rw [List.take_of_length_le hlen.le, htp] at g4
  exact g4

/-- C90: the time at which that state is reached is the time of the stage point: for points `c` ending
at 1, the steps before it add up to `dt (e + c_j)`. -/
theorem C90_times (dt : ℝ) {c : List ℝ} (hc : c.getLast? = some 1) {n e j : Nat} (he : e < n) {a : ℝ}
    (ha : c[j]? = some a) :
    ((List.replicate n (stageSteps dt c)).flatten.take (e * c.length + j + 1)).sum = dt * (e + a) := by
  have hpre : ∀ (l : List ℝ) (b : ℝ) (j : Nat) (a : ℝ), l[j]? = some a →
      (((List.zipWith (· - ·) l (b :: l)).map fun d => dt * d).take (j + 1)).sum = dt * (a - b) := by
    intro l
    induction l with
    | nil => intro b j a h; simp at h
    | cons x l ih =>
      intro b j a h
      rw [List.zipWith_cons_cons, List.map_cons, List.take_succ_cons, List.sum_cons]
      cases j with
      | zero =>
        simp only [List.getElem?_cons_zero, Option.some.injEq] at h
        subst h
        simp
      | succ j =>
        rw [List.getElem?_cons_succ] at h
        rw [ih x j a h]
        ring
  have hsl : (stageSteps dt c).length = c.length := by simp [stageSteps]
  have hj : j < c.length := (List.getElem?_eq_some_iff.1 ha).1
  have hfull : (stageSteps dt c).sum = dt := by
    rw [List.getLast?_eq_getElem?] at hc
    have h1 := hpre c 0 _ _ hc
    rw [show c.length - 1 + 1 = c.length by omega, sub_zero, mul_one] at h1
    refine Eq.trans ?_ h1
    congr 1
    exact (List.take_of_length_le hsl.le).symm
  have hsplit : (List.replicate n (stageSteps dt c)).flatten
      = (List.replicate e (stageSteps dt c)).flatten
        ++ (stageSteps dt c ++ (List.replicate (n - e - 1) (stageSteps dt c)).flatten) := by
    rw [← List.flatten_cons, ← List.replicate_succ, ← List.flatten_append, List.replicate_append_replicate]
    congr 2
    omega
  rw [hsplit, List.take_append, List.sum_append]
  have hl1 : (List.replicate e (stageSteps dt c)).flatten.length = e * c.length := by simp [hsl]
  rw [List.take_of_length_le (by rw [hl1]; omega), hl1,
    show e * c.length + j + 1 - e * c.length = j + 1 by omega,
    List.take_append_of_le_length (by rw [hsl]; omega)]
  have h2 : (List.replicate e (stageSteps dt c)).flatten.sum = dt * e := by
    rw [List.sum_flatten, List.map_replicate, List.sum_replicate, hfull, nsmul_eq_mul, mul_comm]
  rw [h2]
  have h3 := hpre c 0 j a ha
  unfold stageSteps
  rw [h3]
  ring

end

/-! ### The falling problem -/

theorem fall_rhs (sm : ℝ) (p x : List ℝ) : smoothRhs jumpModel sm p x = [-2] := by
  unfold smoothRhs
  show [jumpModel.rhsStep 0 x [] [] p [] _] = _
  congr 1
  unfold UserModel.rhsStep UserModel.rhsStewart
  have e1 : jumpModel.nSys = 1 := rfl
  have e2 : jumpModel.Fmat 0 = ⟨2, fun _ _ _ _ _ _ _ => -2⟩ := rfl
  have e3 : jumpModel.Smat 0 = signMat := rfl
  rw [e1, Finset.sum_range_one, e2]
  beta_reduce
  rw [e3]
  have hw : ∀ i, regionWeight signMat i (jumpModel.smoothAlpha sm x [] p 0)
      = (1 - signMat.entry i 0) / 2 + signMat.entry i 0 * jumpModel.smoothAlpha sm x [] p 0 0 := by
    intro i
    unfold regionWeight
    have : (Finset.range signMat.cols).filter (fun k => signMat.entry i k ≠ 0) = {0} := by
      ext k
      rw [Finset.mem_filter, Finset.mem_range, Finset.mem_singleton]
      show k < 1 ∧ (if i = 0 then (1 : ℝ) else -1) ≠ 0 ↔ _
      constructor
      · omega
      · rintro rfl
        exact ⟨Nat.one_pos, by split <;> norm_num⟩
    rw [this, Finset.prod_singleton]
  show ∑ i ∈ Finset.range 2, (-2 : ℝ) * _ = -2
  rw [Finset.sum_range_succ, Finset.sum_range_one, hw, hw]
  simp [signMat]
  ring

theorem jump_sign : ∀ s < jumpModel.nSys, (jumpModel.Smat s).IsSign := by
  intro s hs i hi k hk
  have e : jumpModel.nSys = 1 := rfl
  obtain rfl : s = 0 := by omega
  show (if i = 0 then (1 : ℝ) else -1) = -1 ∨ (if i = 0 then (1 : ℝ) else -1) = 0 ∨
    (if i = 0 then (1 : ℝ) else -1) = 1
  split <;> simp

theorem jump_stateOnly : jumpModel.StateOnly :=
  ⟨fun s j x z z' p p' => by cases s <;> rfl,
    fun s row col x z z' u u' p p' v v' => by cases s <;> rfl⟩

theorem jump_cols : ∀ s < jumpModel.nSys, 0 < (jumpModel.Fmat s).nCols := by
  intro s hs
  have e : jumpModel.nSys = 1 := rfl
  obtain rfl : s = 0 := by omega
  exact Nat.two_pos

theorem fall_traj (sm : ℝ) (p : List ℝ) (c : ℝ) :
    smoothTraj jumpModel sm p (1 / 2) [c] 2 [1] = [[1], [1 - c], [1 - 2 * c]] := by
  have hf : smoothRhs jumpModel sm p = fun _ => [-2] := funext fun x => fall_rhs sm p x
  unfold smoothTraj
  rw [hf]
  simp [stageSteps, List.replicate, rk4OnTimegrid, rk4Step, sAdd, sSmul]
  constructor <;> ring

/-- The hypotheses of C90 are met by the falling problem; the guesses of its two elements are the states
0 and -1 of `ẋ = -2` at the times 1/2 and 1. -/
example (orc : Oracle) : ∃ po m oc P S,
    Setup oneColloc (fallOpts .differentialLiftX) jumpModel (some UserOcp.trivial) po m oc P ∧
    Reachable oneColloc (fallOpts .differentialLiftX) jumpModel (some UserOcp.trivial) orc S ∧
    Ready jumpModel S ∧ (fallOpts .differentialLiftX).initStrategy = .rk4Smoothened ∧
    (fallOpts .differentialLiftX).pss = .stewart ∧ jumpModel.nZ = 0 ∧
    (fallOpts .differentialLiftX).scheme = .radauIIA ∧
    (∀ s < jumpModel.nSys, (jumpModel.Smat s).IsSign) ∧ jumpModel.StateOnly ∧
    (∀ s < jumpModel.nSys, 0 < (jumpModel.Fmat s).nCols) ∧
    (fallOpts .differentialLiftX).nFe ≤ nfe po 0 ∧ S.m.x0 = [1] ∧
    ∀ sm p, smoothTraj jumpModel sm p (1 / 2) [1] 2 [1] = [[1], [0], [-1]] := by
  obtain ⟨po, m, oc, P, S, h, hS, hr, hx⟩ := fall_setup .differentialLiftX
  refine ⟨po, m, oc, P, S, h.toSetup, .create hS, hr, rfl, rfl, rfl, rfl, jump_sign, jump_stateOnly,
    jump_cols, ?_, hx, fun sm p => ?_⟩
  · have : po.nfeList = [2] := by rw [h.toSetup.opts]; rfl
    unfold nfe
    rw [this]
    exact le_rfl
  · rw [fall_traj]
    norm_num

/-- The full claim of C90 fails for INTEGRAL: the collocation points then include a leading 0, every
guess is that of the point before.  With one stage per element the state guess of both elements of the
falling problem is the initial state 1, though the smoothed system is at 0 and -1 there. -/
theorem C90_integral_violated (orc : Oracle) : ∃ (po : PreOpts) (m : PreModel) (oc : PreOcp)
    (P : Problem) (S S' : Solver) (lam00 : List ℝ),
    Setup oneColloc (fallOpts .integral) jumpModel (some UserOcp.trivial) po m oc P ∧
    Reachable oneColloc (fallOpts .integral) jumpModel (some UserOcp.trivial) orc S ∧
    S.m.x0 = [1] ∧ S.initialize = (S', .ok lam00) ∧
    (∀ sm p, smoothTraj jumpModel sm p (1 / 2) (oneColloc .radauIIA 1) 2 [1] = [[1], [0], [-1]]) ∧
    ∀ e < 2, ∃ i : Nat, S.P.form.w[i]? = some (.st1 .x 0 e 0 0) ∧ S'.P.form.w0[i]? = some 1 := by
  obtain ⟨po, m, oc, P, S, h, hS, hr, hx⟩ := fall_setup .integral
  have h' := h.toSetup
  have hR : Reachable oneColloc (fallOpts .integral) jumpModel (some UserOcp.trivial) orc S :=
    .create hS
  have hnf : nfe po 0 = 2 := by
    have : po.nfeList = [2] := by rw [h'.opts]; rfl
    unfold nfe
    rw [this]
    rfl
  have htp : po.timePts = [0, 1] := (h'.built.opts.integral rfl).2.2.2
  obtain ⟨S', lam00, p0, mu, g1, g2, g3, w0, rfl, g5, g6⟩ := rk4_initialize h' hR hr rfl rfl rfl (by decide)
    jump_sign jump_stateOnly jump_cols (by rw [htp]; rfl) (by rw [htp]; exact Nat.le_succ 1)
    (by rw [hnf]; exact le_rfl)
  refine ⟨po, m, oc, P, S, _, lam00, h', hR, hx, g1, fun sm p => ?_, fun e he => ?_⟩
  · show smoothTraj jumpModel sm p (1 / 2) [1] 2 [1] = _
    rw [fall_traj]
    norm_num
  · have hmem : Sym.st1 .x 0 e 0 0 ∈ S.P.form.w := by
      rw [(hR.inv h').w]
      refine (C04_variables h' _).1 ⟨?_, ⟨?_, ?_⟩, ?_, ?_⟩
      · rw [h'.opts]; exact (by decide : IrkRep.integral ≠ .differential)
      · rw [h'.opts]; exact Nat.one_pos
      · rw [hnf]; exact he
      · rw [h'.opts]; exact Nat.one_pos
      · rw [h'.dims.1]; exact Nat.one_pos
    obtain ⟨i, hi⟩ := List.mem_iff_getElem?.1 hmem
    refine ⟨i, hi, ?_⟩
    show w0[i]? = _
    rw [g6 i _ hi]
    have e1 : (fallOpts .integral).nS = 1 := rfl
    have e2 : (fallOpts .integral).nFe = 2 := rfl
    have e3 : (fallOpts .integral).terminalTime / (((fallOpts .integral).nStages : ℝ) *
        ((fallOpts .integral).nFe : ℝ)) = 1 / 2 := by
      norm_num [fallOpts, Opts.default]
    simp only [rk4Guess]
    rw [e3, htp, hx, e1, e2, if_pos he]
    show some (List.getD (List.getD (smoothTraj jumpModel _ p0 (1 / 2) [0] 2 [1]) _ []) 0 0) = _
    rw [fall_traj]
    interval_cases e <;> simp

section
variable {colloc : IrkScheme → Nat → List ℝ} {o : Opts} {um : UserModel} {uo : Option UserOcp}
  {po : PreOpts} {m : PreModel} {oc : PreOcp} {P : Problem} {orc : Oracle} {S : Solver}

/-- The full claim of C90 also fails for the other representations: with DIFFERENTIAL and at least two
stages, and with Gauss-Legendre, every `solve` with RK4_SMOOTHENED raises, whatever the model. -/
theorem C90_other_schemes_violated (h : Setup colloc o um uo po m oc P)
    (hS : Reachable colloc o um uo orc S) (hs : o.initStrategy = .rk4Smoothened) (hn : 0 < o.nFe)
    (hb : (o.irkRep = .differential ∧ 2 ≤ o.nS) ∨
      (o.irkRep ≠ .integral ∧ o.scheme = .gaussLegendre)) :
    ∃ e, (S.solve orc).2 = .error e := by
  have hi := hS.inv h
  have enS : po.nS = o.nS := by rw [h.opts]
  have enFe : po.nFe = o.nFe := by rw [h.opts]
  have key : ∀ (sf : SmoothFuns) (f : List ℝ → List ℝ) (p0 grid : List ℝ) (fi : FEIdx)
      (fis : List FEIdx) (x : List ℝ) (e : Nat), FENames po m.dims S.P.form.w 0 e fi →
      ∀ l, rk4Loop S sf f p0 grid (fi :: fis) x ≠ .ok l := by
    intro sf f p0 grid fi fis x e hfi l hl
    unfold rk4Loop at hl
    rw [hi.opts] at hl
    simp only [bind_eq_ok, check_eq_ok] at hl
    obtain ⟨pts, h1, xl, h2, -, h3, -⟩ := hl
    rcases hb with ⟨hr, h2s⟩ | ⟨hr, hg⟩
    · rw [mapM_eq_ok] at h1
      have hlen := h1.length_eq
      rw [List.length_range] at hlen
      have h4 := (List.forall₂_iff_get.1 h1).2 1 (by rw [List.length_range]; omega) (by omega)
      simp only [List.get_eq_getElem, List.getElem_range, bind_eq_ok] at h4
      obtain ⟨xk, -, h4⟩ := h4
      unfold rk4Point at h4
      rw [bind_eq_ok] at h4
      obtain ⟨ix, h5, -⟩ := h4
      rw [listGet_eq_ok] at h5
      have h6 := hfi.x.length_eq
      have h7 : (xRows po m.dims 0 e).length ≤ 1 := by
        unfold xRows
        rw [if_pos (by rw [h.opts]; exact hr)]
        split <;> simp
      have := (List.getElem?_eq_some_iff.1 h5).1
      omega
    · obtain ⟨t, ht, -, -, htp⟩ := h.built.opts.diff hr
      rw [hg] at ht
      obtain ⟨c, hc, hlt⟩ := C20_gauss_interior ht
      rw [htp, List.getLast?_map, hc] at h3
      simp only [Option.map_some, Option.some.injEq] at h3
      have : c = 1 := by exact_mod_cast h3
      rw [this] at hlt
      norm_num at hlt
  have hw : ∀ l, rk4Writes S ≠ .ok l := by
    intro l hl
    unfold rk4Writes at hl
    simp only [bind_eq_ok] at hl
    obtain ⟨sf, -, grid, -, p0, -, row, hrow, fis, hfis, _, -, hl⟩ := hl
    rw [listGet_eq_ok] at hrow
    have hfe : List.Forall₂ (fun row k => List.Forall₂ (fun fi e =>
        FENames po m.dims S.P.form.w k e fi) row (List.range (nfe po k))) S.P.idx
        (List.range po.nStages) := by
      have := (C02_index_lists_name h).fe
      rw [hi.prob]
      exact this
    have h0 : 0 < po.nStages := Nat.pos_of_ne_zero h.built.ok.primal.stages
    obtain ⟨row', hrow', hnames⟩ := forall₂_get hfe (i := 0) (b := 0) (by rw [List.getElem?_range h0])
    rw [hrow] at hrow'
    injection hrow' with hrow'
    subst hrow'
    rw [mapM_eq_ok, hi.opts, enFe] at hfis
    have hl1 := hfis.length_eq
    rw [List.length_range] at hl1
    obtain ⟨fi, rest, rfl⟩ : ∃ fi rest, fis = fi :: rest := by
      cases fis with
      | nil => simp at hl1; omega
      | cons a b => exact ⟨a, b, rfl⟩
    have h1 := (List.forall₂_iff_get.1 hfis).2 0 (by rw [List.length_range]; exact hn) (by simp)
    simp only [List.get_eq_getElem, List.getElem_range, List.getElem_cons_zero, listGet_eq_ok] at h1
    have h2 := (List.getElem?_eq_some_iff.1 h1).1
    have h3 := (List.forall₂_iff_get.1 hnames).2 0 h2 (by rw [← hnames.length_eq]; exact h2)
    rw [List.getElem?_eq_getElem h2] at h1
    injection h1 with h1
    simp only [List.get_eq_getElem, List.getElem_range, h1] at h3
    exact key _ _ _ _ _ _ _ _ h3 _ hl
  have hini : ∃ S1 e, S.initialize = (S1, .error e) := by
    unfold Solver.initialize
    cases hc : S.m.computeLambda00 with
    | error e => exact ⟨S, e, rfl⟩
    | ok lam00 =>
      have : S.o.initStrategy = .rk4Smoothened := by rw [hi.opts, h.opts]; exact hs
      unfold Solver.initGuess
      rw [this]
      cases hwr : rk4Writes S with
      | ok l => exact absurd hwr (hw l)
      | error e => exact ⟨S, e, rfl⟩
  obtain ⟨S1, e, hini⟩ := hini
  refine ⟨e, ?_⟩
  unfold Solver.solve Solver.solveFrom
  rw [hini]

/-- Its hypotheses are met: Radau with two stages and DIFFERENTIAL. -/
example (orc : Oracle) : ∃ po m oc P S,
    Setup demoColloc { Opts.default with initStrategy := .rk4Smoothened, irkRep := .differential }
      demoModel (some demoOcp) po m oc P ∧
    Reachable demoColloc { Opts.default with initStrategy := .rk4Smoothened, irkRep := .differential }
      demoModel (some demoOcp) orc S := by
  obtain ⟨po, m, oc, P, h, -, hd, -⟩ := demo_setup
    (o := { Opts.default with initStrategy := .rk4Smoothened, irkRep := .differential })
    (by constructor <;> simp [Opts.default, Opts.nfeAfter])
  have hsm : ∃ sf, addSmooth demoModel m.dims po.smoothing = .ok sf := by
    rw [hd]
    have h0 : 0 < po.smoothing := by rw [h.opts]; simp [Opts.default]
    have hg : demoModel.gStewartTruthy = false := rfl
    unfold addSmooth
    have c1 : check (demoModel.gStewartTruthy = false) .notImplemented = .ok () := by simp [check, hg]
    have c2 : check (0 < po.smoothing) .valueError = .ok () := by simp [check, h0]
    rw [c1, c2]
    exact ⟨_, rfl⟩
  obtain ⟨sf, hsm⟩ := hsm
  refine ⟨po, m, oc, P, ⟨po, m, P, some sf, []⟩, h.toSetup, .create ?_⟩
  unfold Solver.create
  rw [h.ok]
  simp only [ok_bind]
  unfold smoothFor
  rw [if_pos (by rw [h.opts]), hsm]
  rfl

end

end Nosnoc
