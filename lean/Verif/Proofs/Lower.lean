import Verif.Proofs.Rehandle
/-
Lower bounds of the constraint rows (helper lemmas for C44).
-/
namespace Nosnoc

/-- MPCC modes whose complementarity rows have lower bound 0. -/
def LowMode (md : MpccMode) : Prop :=
  md = .scholtesEq ∨ md = .fischerBurmeister ∨ md = .fischerBurmeisterIpAug ∨ md = .elasticEq ∨
    md = .boolean

theorem mkRows_lb {g : Vec} {lb ub : List EReal} {r : Row} (hr : r ∈ mkRows g lb ub) :
    r.2.1 ∈ lb := by
  unfold mkRows at hr
  exact (List.of_mem_zip (List.of_mem_zip hr).2).1

theorem mem_lb_mkRows {g : Vec} {lb ub : List EReal} (h1 : lb.length = g.length)
    (h2 : ub.length = g.length) {l : EReal} (hl : l ∈ lb) : ∃ r ∈ mkRows g lb ub, r.2.1 = l := by
  obtain ⟨i, hi, rfl⟩ := List.getElem_of_mem hl
  refine ⟨(mkRows g lb ub)[i]'(by simp [mkRows]; omega), List.getElem_mem _, ?_⟩
  simp [mkRows]

section
variable {o : PreOpts} {m : PreModel} {oc : PreOcp}

theorem compBounds_low {md : MpccMode} (h : LowMode md) (n k : Nat) :
    ∀ l ∈ (compBounds md n k).1, l = 0 := by
  intro l hl
  rcases h with rfl | rfl | rfl | rfl | rfl <;> exact List.eq_of_mem_replicate hl

/-- All lower bounds of the command are 0. -/
def CmdLow (o : PreOpts) (c : Cmd) : Prop := ∀ z, ∀ l ∈ (cmdBnd o z c).1, l = 0

theorem cmdLow_none (g : Vec) : CmdLow o (.con g none) := fun _ _ hl => List.eq_of_mem_replicate hl

theorem cmdLow_compl (h : LowMode o.mpcc) (xs : List Vec) (y : Vec) : CmdLow o (.compl xs y) :=
  fun _ => compBounds_low h _ _

theorem cmdLow_cost (e : Expr) : CmdLow o (.cost e) := fun _ _ hl => absurd hl (by simp [cmdBnd])

theorem feCmds_low (h : LowMode o.mpcc) (hg : ∀ l ∈ oc.lbg, l = 0) (k e : Nat) :
    ∀ c ∈ feCmds o m oc k e, CmdLow o c := by
  intro c hc
  unfold feCmds at hc
  simp only [List.mem_append, List.mem_flatMap] at hc
  have hpath : ∀ g, CmdLow o (.con g (some (oc.lbg, oc.ubg))) := fun _ _ => hg
  rcases hc with (((((((hc | ⟨j, _, hc⟩) | hc) | hc) | hc)) | hc) | hc) | hc
  · unfold liftC at hc
    split at hc
    · obtain ⟨j, _, rfl⟩ := List.mem_map.1 hc; exact cmdLow_none _
    · cases hc
  · simp only [stageC, List.mem_cons, List.not_mem_nil, or_false] at hc
    rcases hc with rfl | rfl | rfl
    · exact cmdLow_none _
    · exact cmdLow_none _
    · exact cmdLow_cost _
  · unfold contC at hc
    split at hc
    · rw [List.mem_singleton] at hc; subst hc; exact cmdLow_none _
    · cases hc
  · unfold pathC at hc
    rw [List.mem_append] at hc
    rcases hc with hc | hc
    · split at hc
      · rw [List.mem_singleton] at hc; subst hc; exact hpath _
      · cases hc
    · split at hc
      · obtain ⟨j, _, rfl⟩ := List.mem_map.1 hc; exact hpath _
      · cases hc
  · unfold boundC at hc
    split at hc
    · rw [List.mem_singleton] at hc; subst hc; exact cmdLow_none _
    · cases hc
  · unfold pathCompC at hc
    rw [List.mem_append] at hc
    rcases hc with hc | hc
    · obtain ⟨j, _, rfl⟩ := List.mem_map.1 hc; exact cmdLow_compl h _ _
    · split at hc
      · rw [List.mem_singleton] at hc; subst hc; exact cmdLow_compl h _ _
      · cases hc
  · unfold crossC at hc
    split at hc
    · obtain ⟨j, _, rfl⟩ := List.mem_map.1 hc; exact cmdLow_compl h _ _
    · split at hc
      · obtain ⟨j, _, hc⟩ := List.mem_flatMap.1 hc
        rcases List.mem_cons.1 hc with rfl | hc
        · exact cmdLow_compl h _ _
        · obtain ⟨j, _, rfl⟩ := List.mem_map.1 hc; exact cmdLow_compl h _ _
      · obtain ⟨j, _, rfl⟩ := List.mem_map.1 hc; exact cmdLow_compl h _ _
  · unfold stepEqC at hc
    repeat' split at hc
    all_goals
      first
      | cases hc; done
      | (simp only [List.mem_singleton] at hc; subst hc;
         first | exact cmdLow_cost _ | exact cmdLow_compl h _ _ | exact cmdLow_none _)
      | skip

theorem seqRows_low {bs : Nat → Sym} {cs : List Cmd} (h : ∀ c ∈ cs, CmdLow o c) (pos : Nat) :
    ∀ r ∈ seqRows o bs pos cs, r.2.1 = 0 := by
  induction cs generalizing pos with
  | nil => intro r hr; cases hr
  | cons c cs ih =>
    intro r hr
    unfold seqRows at hr
    rcases List.mem_append.1 hr with hr | hr
    · exact h c List.mem_cons_self _ _ (mkRows_lb hr)
    · exact ih (fun c hc => h c (List.mem_cons_of_mem _ hc)) _ r hr

theorem seqRows_mem {bs : Nat → Sym} {cs : List Cmd} {c : Cmd} (hc : c ∈ cs) (pos : Nat) :
    ∃ z, ∀ r ∈ cmdRows o z c, r ∈ seqRows o bs pos cs := by
  induction cs generalizing pos with
  | nil => cases hc
  | cons c' cs ih =>
    unfold seqRows
    rcases List.mem_cons.1 hc with rfl | hc
    · exact ⟨_, fun r hr => List.mem_append_left _ hr⟩
    · obtain ⟨z, hz⟩ := ih hc (pos + cmdNV o c')
      exact ⟨z, fun r hr => List.mem_append_right _ (hz r hr)⟩

/-- The inequality modes have a row without lower bound for every nonempty complementarity. -/
theorem cmdRows_bot (h : o.mpcc = .scholtesIneq ∨ o.mpcc = .elasticIneq ∨ o.mpcc = .elasticTwoSided)
    {xs : List Vec} {y : Vec} (hc : CmdOk o (.compl xs y)) (hy : 0 < y.length) (z : List Sym) :
    ∃ r ∈ cmdRows o z (.compl xs y), r.2.1 = ⊥ := by
  obtain ⟨h1, h2⟩ := cmdBnd_length (o := o) z hc
  refine mem_lb_mkRows h1 h2 ?_
  unfold cmdBnd compBounds cmdG
  rcases h with h | h | h <;> simp only [h, compExpr, reduceCtorEq, if_false]
  · simp [List.length_pos_iff.1 hy]
  · simp [List.length_pos_iff.1 hy]
  · simp [List.length_pos_iff.1 hy]

end

section
variable {colloc : IrkScheme → Nat → List ℝ} {o : Opts} {um : UserModel} {uo : Option UserOcp}
  {po : PreOpts} {m : PreModel} {oc : PreOcp} {P : Problem}

theorem Built.rows_lb (h : Built colloc o um uo po m oc P) (he : po.constraintHandling = .exact)
    (l : EReal) : l ∈ P.form.lbg ↔ ∃ r ∈ (form5 po m oc).rows, r.2.1 = l := by
  obtain ⟨nC, nF, g, up, f0, acc, hp⟩ := h.pre
  have hx := h.data.fe h.ok.primal
  rw [h.form he]
  have hA := form5_aligned (hp.udata h.ocp) hx h.funs h.ok.aug
  constructor
  · intro hl
    exact mem_lb_mkRows hA.lbg hA.ubg hl
  · rintro ⟨r, hr, rfl⟩
    exact mkRows_lb hr

theorem Built.lbg_zero (h : Built colloc o um uo po m oc P) (he : po.constraintHandling = .exact)
    (hm : LowMode po.mpcc) (ht : po.timeFreezing = false)
    (hg : ∀ i < (uo.getD UserOcp.trivial).nGPath,
      getOr (uo.getD UserOcp.trivial).lbg 0 i = 0) :
    ∀ l ∈ P.form.lbg, l = 0 := by
  intro l hl
  obtain ⟨r, hr, rfl⟩ := (h.rows_lb he l).1 hl
  obtain ⟨nC, nF, g, up, f0, acc, hp⟩ := h.pre
  have hx := h.data.fe h.ok.primal
  have hd := hp.udata h.ocp
  have hg' : ∀ l ∈ oc.lbg, l = 0 := by
    intro l hl
    rw [hd.lbg] at hl
    obtain ⟨i, hi, rfl⟩ := List.mem_map.1 hl
    exact hg i (List.mem_range.1 hi)
  rw [form5_rows hd hx h.funs h.ok.aug] at hr
  simp only [List.mem_append] at hr
  rcases hr with ((hr | hr) | hr) | hr
  · simp only [allBlks, List.mem_flatMap, stageBlks, List.mem_append, List.mem_map,
      List.mem_range] at hr
    obtain ⟨b, ⟨k, hk, (⟨e, hk', rfl⟩ | hb) | hb⟩, hr⟩ := hr
    · rw [show (feDone po m oc k e).blk.rows = _ from feDone_rows hx h.funs h.ok.aug k e] at hr
      exact seqRows_low (feCmds_low hm hg' k e) _ r hr
    · split at hb
      · rw [List.mem_singleton] at hb; subst hb
        have := mkRows_lb hr
        simpa [equiBlk] using this
      · cases hb
    · rw [if_neg (by rw [ht]; simp)] at hb
      cases hb
  · exact cmdLow_compl hm _ _ _ _ (mkRows_lb hr)
  · exact List.eq_of_mem_replicate (mkRows_lb hr)
  · unfold timeBlks at hr
    split at hr
    · simp only [List.flatMap_cons, List.flatMap_nil, List.append_nil] at hr
      have := mkRows_lb hr
      simpa using this
    · cases hr

theorem Built.lbg_bot (h : Built colloc o um uo po m oc P) (he : po.constraintHandling = .exact)
    (hm : po.mpcc = .scholtesIneq ∨ po.mpcc = .elasticIneq ∨ po.mpcc = .elasticTwoSided)
    (hq : pairList po m.dims ≠ []) : ⊥ ∈ P.form.lbg := by
  rw [h.rows_lb he]
  obtain ⟨nC, nF, g, up, f0, acc, hp⟩ := h.pre
  have hx := h.data.fe h.ok.primal
  have hd := hp.udata h.ocp
  have hk : FEIn po 0 0 :=
    ⟨Nat.pos_of_ne_zero h.ok.primal.stages,
      (h.ok.primal.nfe 0 (Nat.pos_of_ne_zero h.ok.primal.stages)).2⟩
  have hlen : 0 < (pairList po m.dims).length := List.length_pos_iff.2 hq
  have ht : ∀ j, (thetaVec po m.dims 0 0 j).length = (pairList po m.dims).length := by
    intro j; rw [thetaVec_eq]; simp
  have hl : nLam po m.dims = (pairList po m.dims).length := by
    rw [← ht 0, length_thetaVec]
  have hS := h.nS
  have key : ∃ xs y, Cmd.compl xs y ∈ feCmds po m oc 0 0 ∧ 0 < y.length := by
    unfold feCmds crossC
    by_cases hu : po.useFesd = false
    · rw [if_pos hu]
      refine ⟨_, _, List.mem_append_left _ (List.mem_append_right _
        (List.mem_map.2 ⟨0, List.mem_range.2 hS, rfl⟩)), ?_⟩
      rw [ht]; exact hlen
    · rw [if_neg hu]
      by_cases hc : po.crossComp = .complementAll
      · rw [if_pos hc]
        refine ⟨_, _, List.mem_append_left _ (List.mem_append_right _
          (List.mem_flatMap.2 ⟨0, List.mem_range.2 hS, List.mem_cons_self⟩)), ?_⟩
        rw [length_startLam, hl]; exact hlen
      · rw [if_neg hc]
        refine ⟨_, _, List.mem_append_left _ (List.mem_append_right _
          (List.mem_map.2 ⟨0, List.mem_range.2 hS, rfl⟩)), ?_⟩
        rw [ht]; exact hlen
  obtain ⟨xs, y, hmem, hy⟩ := key
  have hok := feCmds_ok (o := po) h.funs h.ok.aug 0 0 _ hmem
  obtain ⟨z, hz⟩ := seqRows_mem (o := po) (bs := .boolFe 0 0) hmem
    (feOf po m oc 0 0).form.w.length
  obtain ⟨r, hr, hb⟩ := cmdRows_bot hm hok hy z
  refine ⟨r, ?_, hb⟩
  rw [form5_rows hd hx h.funs h.ok.aug]
  refine List.mem_append_left _ (List.mem_append_left _ (List.mem_append_left _ ?_))
  simp only [allBlks, List.mem_flatMap, stageBlks, List.mem_append, List.mem_map, List.mem_range]
  refine ⟨_, ⟨0, hk.1, .inl (.inl ⟨0, hk.2, rfl⟩)⟩, ?_⟩
  rw [show (feDone po m oc 0 0).blk.rows = _ from feDone_rows hx h.funs h.ok.aug 0 0]
  exact hz r hr

/-- The path constraint at the end of an element is one of the constraints. -/
theorem Built.path_mem (h : Built colloc o um uo po m oc P) (he : po.constraintHandling = .exact)
    {k e i : Nat} (hk : HasFE po k e) (hp : e + 1 = nfe po k ∨ po.gPathAtFe = true)
    (hi : i < (uo.getD UserOcp.trivial).nGPath) : ∃ c ∈ P.form.g, ∀ env,
      c env = (uo.getD UserOcp.trivial).gPath i
        (if po.rbe then xVal po m.dims k e (po.nS - 1) env else xEndVal po m.dims k e env)
        (uVal m.dims k env) (pVal m.dims k env) (vVal m.dims env) := by
  obtain ⟨nC, nF, g, up, f0, acc, hpre⟩ := h.pre
  have hx := h.data.fe h.ok.primal
  have hd := hpre.udata h.ocp
  have hX : (pathX po m.dims k e).length = m.dims.nX := by
    unfold pathX; split <;> simp
  have hmem : Cmd.con (gPathAt m oc k (pathX po m.dims k e)) (some (oc.lbg, oc.ubg))
      ∈ feCmds po m oc k e := by
    unfold feCmds pathC
    rw [if_pos hp]
    simp
  obtain ⟨z, hz⟩ := seqRows_mem (o := po) (bs := .boolFe k e) hmem
    (feOf po m oc k e).form.w.length
  have hlen : i < (mkRows (gPathAt m oc k (pathX po m.dims k e)) oc.lbg oc.ubg).length := by
    rw [gPathAt_eq h.ocp hX, hd.lbg, hd.ubg]
    simp [mkRows, hi]
  have hr := hz _ (List.getElem_mem (l := cmdRows po z (.con (gPathAt m oc k (pathX po m.dims k e))
    (some (oc.lbg, oc.ubg)))) hlen)
  have hrow : ∀ r ∈ (form5 po m oc).rows, r.1 ∈ P.form.g := by
    intro r hr
    rw [h.form he]
    exact (List.of_mem_zip hr).1
  have hin : (cmdRows po z (.con (gPathAt m oc k (pathX po m.dims k e))
      (some (oc.lbg, oc.ubg))))[i] ∈ (form5 po m oc).rows := by
    rw [form5_rows hd hx h.funs h.ok.aug]
    refine List.mem_append_left _ (List.mem_append_left _ (List.mem_append_left _ ?_))
    simp only [allBlks, List.mem_flatMap, stageBlks, List.mem_append, List.mem_map, List.mem_range]
    refine ⟨_, ⟨k, hk.1, .inl (.inl ⟨e, hk.2, rfl⟩)⟩, ?_⟩
    rw [show (feDone po m oc k e).blk.rows = _ from feDone_rows hx h.funs h.ok.aug k e]
    exact hr
  refine ⟨_, hrow _ hin, fun env => ?_⟩
  have : (cmdRows po z (.con (gPathAt m oc k (pathX po m.dims k e))
      (some (oc.lbg, oc.ubg))))[i].1 = (gPathAt m oc k (pathX po m.dims k e))[i]'(by
        rw [gPathAt_eq h.ocp hX]; simpa using hi) := by
    simp [cmdRows, mkRows, cmdG]
  rw [this, ← evalVec_pathX]
  have key : ∀ (l : Vec) (n : Nat) (f : Nat → Expr) (_ : l = vec n f) (hi : i < l.length),
      l[i] env = f i env := by
    rintro _ n f rfl hi
    have h1 : (vec n f)[i]? = some (f i) := by
      have : i < n := by simpa using hi
      simp [vec, this]
    rw [List.getElem?_eq_getElem hi] at h1
    rw [Option.some.inj h1]
  exact key _ _ _ (gPathAt_eq h.ocp hX) _

end
/-! ### Upper bounds -/

/-- MPCC modes whose complementarity rows are equations. -/
def EqMode (md : MpccMode) : Prop :=
  md = .scholtesEq ∨ md = .fischerBurmeister ∨ md = .fischerBurmeisterIpAug ∨ md = .elasticEq

theorem mkRows_ub {g : Vec} {lb ub : List EReal} {r : Row} (hr : r ∈ mkRows g lb ub) :
    r.2.2 ∈ ub := by
  unfold mkRows at hr
  exact (List.of_mem_zip (List.of_mem_zip hr).2).2

theorem mem_ub_mkRows {g : Vec} {lb ub : List EReal} (h1 : lb.length = g.length)
    (h2 : ub.length = g.length) {l : EReal} (hl : l ∈ ub) : ∃ r ∈ mkRows g lb ub, r.2.2 = l := by
  obtain ⟨i, hi, rfl⟩ := List.getElem_of_mem hl
  refine ⟨(mkRows g lb ub)[i]'(by simp [mkRows]; omega), List.getElem_mem _, ?_⟩
  simp [mkRows]

section
variable {o : PreOpts} {m : PreModel} {oc : PreOcp}

theorem compBounds_up {md : MpccMode} (h : EqMode md) (n k : Nat) :
    ∀ l ∈ (compBounds md n k).2, l = 0 := by
  intro l hl
  rcases h with rfl | rfl | rfl | rfl <;> exact List.eq_of_mem_replicate hl

/-- All upper bounds of the command are 0. -/
def CmdUp (o : PreOpts) (c : Cmd) : Prop := ∀ z, ∀ l ∈ (cmdBnd o z c).2, l = 0

theorem cmdUp_none (g : Vec) : CmdUp o (.con g none) := fun _ _ hl => List.eq_of_mem_replicate hl

theorem cmdUp_compl (h : EqMode o.mpcc) (xs : List Vec) (y : Vec) : CmdUp o (.compl xs y) :=
  fun _ => compBounds_up h _ _

theorem cmdUp_cost (e : Expr) : CmdUp o (.cost e) := fun _ _ hl => absurd hl (by simp [cmdBnd])

theorem feCmds_up (h : EqMode o.mpcc) (hg : ∀ l ∈ oc.ubg, l = 0) (k e : Nat) :
    ∀ c ∈ feCmds o m oc k e, CmdUp o c := by
  intro c hc
  unfold feCmds at hc
  simp only [List.mem_append, List.mem_flatMap] at hc
  have hpath : ∀ g, CmdUp o (.con g (some (oc.lbg, oc.ubg))) := fun _ _ => hg
  rcases hc with (((((((hc | ⟨j, _, hc⟩) | hc) | hc) | hc)) | hc) | hc) | hc
  · unfold liftC at hc
    split at hc
    · obtain ⟨j, _, rfl⟩ := List.mem_map.1 hc; exact cmdUp_none _
    · cases hc
  · simp only [stageC, List.mem_cons, List.not_mem_nil, or_false] at hc
    rcases hc with rfl | rfl | rfl
    · exact cmdUp_none _
    · exact cmdUp_none _
    · exact cmdUp_cost _
  · unfold contC at hc
    split at hc
    · rw [List.mem_singleton] at hc; subst hc; exact cmdUp_none _
    · cases hc
  · unfold pathC at hc
    rw [List.mem_append] at hc
    rcases hc with hc | hc
    · split at hc
      · rw [List.mem_singleton] at hc; subst hc; exact hpath _
      · cases hc
    · split at hc
      · obtain ⟨j, _, rfl⟩ := List.mem_map.1 hc; exact hpath _
      · cases hc
  · unfold boundC at hc
    split at hc
    · rw [List.mem_singleton] at hc; subst hc; exact cmdUp_none _
    · cases hc
  · unfold pathCompC at hc
    rw [List.mem_append] at hc
    rcases hc with hc | hc
    · obtain ⟨j, _, rfl⟩ := List.mem_map.1 hc; exact cmdUp_compl h _ _
    · split at hc
      · rw [List.mem_singleton] at hc; subst hc; exact cmdUp_compl h _ _
      · cases hc
  · unfold crossC at hc
    split at hc
    · obtain ⟨j, _, rfl⟩ := List.mem_map.1 hc; exact cmdUp_compl h _ _
    · split at hc
      · obtain ⟨j, _, hc⟩ := List.mem_flatMap.1 hc
        rcases List.mem_cons.1 hc with rfl | hc
        · exact cmdUp_compl h _ _
        · obtain ⟨j, _, rfl⟩ := List.mem_map.1 hc; exact cmdUp_compl h _ _
      · obtain ⟨j, _, rfl⟩ := List.mem_map.1 hc; exact cmdUp_compl h _ _
  · unfold stepEqC at hc
    repeat' split at hc
    all_goals
      first
      | cases hc; done
      | (simp only [List.mem_singleton] at hc; subst hc;
         first | exact cmdUp_cost _ | exact cmdUp_compl h _ _ | exact cmdUp_none _)
      | skip

theorem seqRows_up {bs : Nat → Sym} {cs : List Cmd} (h : ∀ c ∈ cs, CmdUp o c) (pos : Nat) :
    ∀ r ∈ seqRows o bs pos cs, r.2.2 = 0 := by
  induction cs generalizing pos with
  | nil => intro r hr; cases hr
  | cons c cs ih =>
    intro r hr
    unfold seqRows at hr
    rcases List.mem_append.1 hr with hr | hr
    · exact h c List.mem_cons_self _ _ (mkRows_ub hr)
    · exact ih (fun c hc => h c (List.mem_cons_of_mem _ hc)) _ r hr

end

section
variable {colloc : IrkScheme → Nat → List ℝ} {o : Opts} {um : UserModel} {uo : Option UserOcp}
  {po : PreOpts} {m : PreModel} {oc : PreOcp} {P : Problem}

theorem Built.rows_ub (h : Built colloc o um uo po m oc P) (he : po.constraintHandling = .exact)
    (l : EReal) : l ∈ P.form.ubg ↔ ∃ r ∈ (form5 po m oc).rows, r.2.2 = l := by
  obtain ⟨nC, nF, g, up, f0, acc, hp⟩ := h.pre
  have hx := h.data.fe h.ok.primal
  rw [h.form he]
  have hA := form5_aligned (hp.udata h.ocp) hx h.funs h.ok.aug
  constructor
  · intro hl
    exact mem_ub_mkRows hA.lbg hA.ubg hl
  · rintro ⟨r, hr, rfl⟩
    exact mkRows_ub hr

theorem Built.ubg_zero (h : Built colloc o um uo po m oc P) (he : po.constraintHandling = .exact)
    (hm : EqMode po.mpcc) (ht : po.timeFreezing = false)
    (hg : ∀ i < (uo.getD UserOcp.trivial).nGPath,
      getOr (uo.getD UserOcp.trivial).ubg 0 i = 0) :
    ∀ l ∈ P.form.ubg, l = 0 := by
  intro l hl
  obtain ⟨r, hr, rfl⟩ := (h.rows_ub he l).1 hl
  obtain ⟨nC, nF, g, up, f0, acc, hp⟩ := h.pre
  have hx := h.data.fe h.ok.primal
  have hd := hp.udata h.ocp
  have hg' : ∀ l ∈ oc.ubg, l = 0 := by
    intro l hl
    rw [hd.ubg] at hl
    obtain ⟨i, hi, rfl⟩ := List.mem_map.1 hl
    exact hg i (List.mem_range.1 hi)
  rw [form5_rows hd hx h.funs h.ok.aug] at hr
  simp only [List.mem_append] at hr
  rcases hr with ((hr | hr) | hr) | hr
  · simp only [allBlks, List.mem_flatMap, stageBlks, List.mem_append, List.mem_map,
      List.mem_range] at hr
    obtain ⟨b, ⟨k, hk, (⟨e, hk', rfl⟩ | hb) | hb⟩, hr⟩ := hr
    · rw [show (feDone po m oc k e).blk.rows = _ from feDone_rows hx h.funs h.ok.aug k e] at hr
      exact seqRows_up (feCmds_up hm hg' k e) _ r hr
    · split at hb
      · rw [List.mem_singleton] at hb; subst hb
        have := mkRows_ub hr
        simpa [equiBlk] using this
      · cases hb
    · rw [if_neg (by rw [ht]; simp)] at hb
      cases hb
  · exact cmdUp_compl hm _ _ _ _ (mkRows_ub hr)
  · exact List.eq_of_mem_replicate (mkRows_ub hr)
  · unfold timeBlks at hr
    split at hr
    · simp only [List.flatMap_cons, List.flatMap_nil, List.append_nil] at hr
      have := mkRows_ub hr
      simpa using this
    · cases hr

end

end Nosnoc
