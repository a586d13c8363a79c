import Verif.Proofs.Master
import Verif.Spec.CompRows
/-
Helper lemmas: positions of the complementarity constraints.
-/
namespace Nosnoc

/-- Rows with a tag: complementarity or not. -/
abbrev Seg := Bool × List Row

def segRows (l : List Seg) : List Row := l.flatMap fun s => s.2
/-- Positions of the tagged rows, the first of which is number `n`. -/
def segPos : Nat → List Seg → List Nat
  | _, [] => []
  | n, s :: rest => (if s.1 then List.range' n s.2.length else []) ++ segPos (n + s.2.length) rest

theorem segPos_append (n : Nat) (a b : List Seg) :
    segPos n (a ++ b) = segPos n a ++ segPos (n + (segRows a).length) b := by
  induction a generalizing n with
  | nil => simp [segPos, segRows]
  | cons s a ih =>
    simp only [List.cons_append, segPos, ih, segRows, List.flatMap_cons, List.length_append,
      List.append_assoc, Nat.add_assoc]

theorem segPos_shift (n c : Nat) (a : List Seg) : segPos (n + c) a = (segPos n a).map (· + c) := by
  induction a generalizing n with
  | nil => rfl
  | cons s a ih =>
    simp only [segPos, List.map_append]
    rw [show n + c + s.2.length = n + s.2.length + c by omega, ih]
    congr 1
    cases s.1
    · rfl
    · simp [List.map_add_range', Nat.add_comm]

theorem segPos_bounds {n : Nat} {a : List Seg} {i : Nat} (h : i ∈ segPos n a) :
    n ≤ i ∧ i < n + (segRows a).length := by
  induction a generalizing n with
  | nil => cases h
  | cons s a ih =>
    simp only [segPos, List.mem_append, segRows, List.flatMap_cons, List.length_append] at h ⊢
    rcases h with h | h
    · cases hs : s.1 <;> simp [hs, List.mem_range'_1] at h
      omega
    · have := ih h
      unfold segRows at this
      omega

theorem segPos_sorted (n : Nat) (a : List Seg) : (segPos n a).Pairwise (· < ·) := by
  induction a generalizing n with
  | nil => exact List.Pairwise.nil
  | cons s a ih =>
    rw [segPos, List.pairwise_append]
    refine ⟨?_, ih _, ?_⟩
    · cases s.1
      · exact List.Pairwise.nil
      · exact List.pairwise_lt_range'
    · intro x hx y hy
      have := segPos_bounds hy
      cases hs : s.1 <;> simp [hs, List.mem_range'_1] at hx
      omega

theorem segPos_all {a : List Seg} {Q : Row → Prop} (n : Nat) :
    ((∀ i ∈ segPos n a, ∀ r, (segRows a)[i - n]? = some r → Q r) ↔
      ∀ s ∈ a, s.1 = true → ∀ r ∈ s.2, Q r) ∧
    ((∀ i, n ≤ i → i < n + (segRows a).length → i ∉ segPos n a →
        ∀ r, (segRows a)[i - n]? = some r → Q r) ↔
      ∀ s ∈ a, s.1 = false → ∀ r ∈ s.2, Q r) := by
  induction a generalizing n with
  | nil => simp [segPos, segRows]
  | cons s a ih =>
    obtain ⟨i1, i2⟩ := ih (n + s.2.length)
    have hrows : segRows (s :: a) = s.2 ++ segRows a := by simp [segRows]
    have hget1 : ∀ i, n ≤ i → i < n + s.2.length →
        (s.2 ++ segRows a)[i - n]? = s.2[i - n]? := by
      intro i h1 h2; rw [List.getElem?_append_left (by omega)]
    have hget2 : ∀ i, n + s.2.length ≤ i →
        (s.2 ++ segRows a)[i - n]? = (segRows a)[i - (n + s.2.length)]? := by
      intro i h1
      rw [List.getElem?_append_right (by omega)]
      congr 1; omega
    have hhead : (∀ i, n ≤ i → i < n + s.2.length → ∀ r, s.2[i - n]? = some r → Q r) ↔
        ∀ r ∈ s.2, Q r := by
      constructor
      · intro H r hr
        obtain ⟨i, hi, rfl⟩ := List.mem_iff_getElem.1 hr
        exact H (n + i) (by omega) (by omega) _ (by simp [hi])
      · intro H i _ _ r hr
        exact H r (List.mem_of_getElem? hr)
    rw [hrows]
    simp only [List.forall_mem_cons]
    constructor
    · simp only [segPos, List.forall_mem_append]
      refine and_congr ?_ ?_
      · cases hs : s.1
        · simp
        · simp only [if_true, List.mem_range'_1, true_implies]
          rw [← hhead]
          refine forall_congr' fun i => ?_
          constructor
          · intro H h1 h2; rw [← hget1 i h1 h2]; exact H ⟨h1, h2⟩
          · rintro H ⟨h1, h2⟩; rw [hget1 i h1 h2]; exact H h1 h2
      · rw [← i1]
        refine forall_congr' fun i => forall_congr' fun hi => ?_
        rw [hget2 i (segPos_bounds hi).1]
    · rw [← i2]
      have hlen : (s.2 ++ segRows a).length = s.2.length + (segRows a).length := by simp
      rw [hlen]
      constructor
      · intro H
        refine ⟨fun hs => hhead.1 fun i h1 h2 => ?_, fun i h1 h2 h3 => ?_⟩
        · rw [← hget1 i h1 h2]
          refine H i h1 (by omega) ?_
          simp only [segPos, hs, Bool.false_eq_true, if_false, List.nil_append]
          intro h; have := segPos_bounds h; omega
        · rw [← hget2 i h1]
          refine H i (by omega) (by omega) ?_
          simp only [segPos, List.mem_append]
          rintro (h | h)
          · cases hs : s.1 <;> simp [hs, List.mem_range'_1] at h; omega
          · exact h3 h
      · rintro ⟨H1, H2⟩ i h1 h2 h3
        simp only [segPos, List.mem_append, not_or] at h3
        by_cases hi : i < n + s.2.length
        · rw [hget1 i h1 hi]
          cases hs : s.1
          · exact hhead.2 (H1 hs) i h1 hi
          · exfalso; apply h3.1; simp [hs, List.mem_range'_1, h1, hi]
        · rw [hget2 i (by omega)]
          exact H2 i (by omega) (by omega) h3.2

section
variable {o : PreOpts} {m : PreModel} {oc : PreOcp} {um : UserModel} {uo : UserOcp}

noncomputable def seqSegs (o : PreOpts) (bs : Nat → Sym) : Nat → List Cmd → List Seg
  | _, [] => []
  | pos, c :: cs => (isCompl c, cmdRows o (cmdVars o bs pos c) c)
      :: seqSegs o bs (pos + cmdNV o c) cs

theorem segRows_seq (bs : Nat → Sym) (pos : Nat) (cs : List Cmd) :
    segRows (seqSegs o bs pos cs) = seqRows o bs pos cs := by
  induction cs generalizing pos with
  | nil => rfl
  | cons c cs ih =>
    have := ih (pos + cmdNV o c)
    simp only [segRows] at this
    simp [segRows, seqSegs, seqRows, this]

theorem length_mkRows {g : Vec} {lb ub : List EReal} (h1 : lb.length = g.length)
    (h2 : ub.length = g.length) : (mkRows g lb ub).length = g.length := by
  simp [mkRows, h1, h2]

theorem cmdCompIdx_flatten (z : List Sym) (ng : Nat) {c : Cmd} (hc : CmdOk o c) :
    (cmdCompIdx o z ng c).flatten
      = if isCompl c then List.range' ng (cmdRows o z c).length else [] := by
  have hl := cmdBnd_length z hc
  have : (cmdRows o z c).length = (cmdG o z c).length := length_mkRows hl.1 hl.2
  rw [this]
  unfold cmdCompIdx
  by_cases h1 : isCompl c = true
  · by_cases h2 : (cmdG o z c).length = 0
    · simp [h1, h2]
    · simp [h1, h2]
  · simp [h1]

theorem execs_comp {fe : FE} {cs : List Cmd} (hc : ∀ c ∈ cs, CmdOk o c) :
    (cs.foldl (execFE o) fe).indComp.flatten = fe.indComp.flatten
      ++ segPos fe.form.g.length (seqSegs o (.boolFe fe.k fe.e) fe.form.w.length cs) := by
  induction cs generalizing fe with
  | nil => simp [seqSegs, segPos]
  | cons c cs ih =>
    have hc0 := hc c (by simp)
    rw [List.foldl_cons, ih fun c' h => hc c' (by simp [h])]
    have hlen : (execFE o fe c).form.w.length = fe.form.w.length + cmdNV o c := by
      simp [execFE, execForm, length_cmdVars]
    have hl := cmdBnd_length (cmdVars o (.boolFe fe.k fe.e) fe.form.w.length c) hc0
    have hg : (execFE o fe c).form.g.length = fe.form.g.length
        + (cmdRows o (cmdVars o (.boolFe fe.k fe.e) fe.form.w.length c) c).length := by
      rw [show (cmdRows o (cmdVars o (.boolFe fe.k fe.e) fe.form.w.length c) c).length
        = (cmdG o (cmdVars o (.boolFe fe.k fe.e) fe.form.w.length c) c).length
        from length_mkRows hl.1 hl.2]
      simp [execFE, execForm]
    rw [hlen, hg]
    simp only [execFE, List.flatten_append, cmdCompIdx_flatten _ _ hc0, seqSegs, segPos,
      List.append_assoc]

/-- Tagged rows of one element. -/
noncomputable def feSegs (o : PreOpts) (m : PreModel) (oc : PreOcp) (k e : Nat) : List Seg :=
  seqSegs o (.boolFe k e) (feOf o m oc k e).form.w.length (feCmds o m oc k e)

theorem feDone_comp (hf : FunsOk o m oc) (ha : NoAugSum o) (k e : Nat) :
    (feDone o m oc k e).indComp.flatten = segPos 0 (feSegs o m oc k e) := by
  unfold feDone
  rw [execs_comp (feCmds_ok hf ha k e)]
  have h1 : (feOf o m oc k e).form.g = [] := by
    show (FE.blank o m.dims k e (prevRef o k e)).form.g = []
    unfold FE.blank
    by_cases h : o.useFesd = true <;> simp [h, Form.empty]
  have h2 : (feOf o m oc k e).indComp = [] := by
    show (FE.blank o m.dims k e (prevRef o k e)).indComp = []
    unfold FE.blank
    by_cases h : o.useFesd = true <;> simp
  rw [h1, h2]
  rfl

theorem feDone_g (hx : FEDataOk m oc) (hf : FunsOk o m oc) (ha : NoAugSum o) (k e : Nat) :
    (feDone o m oc k e).form.g.length = (segRows (feSegs o m oc k e)).length := by
  have hal := feDone_aligned hx hf ha k e
  rw [← length_mkRows hal.lbg hal.ubg]
  show ((feDone o m oc k e).form.rows).length = _
  rw [feDone_rows hx hf ha, feSegs, segRows_seq]

theorem compIdxs_flatten (hx : FEDataOk m oc) (hf : FunsOk o m oc) (ha : NoAugSum o) (k : Nat)
    (es : List Nat) (n : Nat) :
    (compIdxs n (es.map (feDone o m oc k))).flatten.flatten
      = segPos n (es.flatMap (feSegs o m oc k)) := by
  induction es generalizing n with
  | nil => rfl
  | cons e es ih =>
    simp only [List.map_cons, compIdxs, List.flatten_cons, List.flatten_append, ih,
      List.flatMap_cons, segPos_append, feDone_g hx hf ha]
    congr 1
    rw [← List.map_flatten, feDone_comp hf ha, ← segPos_shift]
    simp

/-- Tagged rows of one control stage. -/
noncomputable def stageSegs (o : PreOpts) (m : PreModel) (oc : PreOcp) (k : Nat) : List Seg :=
  (List.range (nfe o k)).flatMap (feSegs o m oc k)
    ++ (if o.useFesd = true ∧ o.equidistant = true then [(false, (equiBlk o k).rows)] else [])
    ++ (if o.timeFreezing = true ∧ o.equidistant = true then [(false, (tfBlk o m k).rows)] else [])

theorem segRows_append (a b : List Seg) : segRows (a ++ b) = segRows a ++ segRows b := by
  simp [segRows]

theorem segRows_stage (hx : FEDataOk m oc) (hf : FunsOk o m oc) (ha : NoAugSum o) (k : Nat) :
    segRows (stageSegs o m oc k) = (stageBlks o m oc k).flatMap Blk.rows := by
  unfold stageSegs stageBlks
  rw [segRows_append, segRows_append, List.flatMap_append, List.flatMap_append]
  congr 1
  · congr 1
    · rw [segRows, List.flatMap_assoc, List.flatMap_map]
      congr 1
      funext e
      exact (segRows_seq _ _ _).trans (feDone_rows hx hf ha k e).symm
    · split <;> simp [segRows]
  · split <;> simp [segRows]

theorem segPos_stage (n k : Nat) : segPos n (stageSegs o m oc k)
    = segPos n ((List.range (nfe o k)).flatMap (feSegs o m oc k)) := by
  unfold stageSegs
  rw [List.append_assoc, segPos_append]
  conv_rhs => rw [← List.append_nil (segPos n _)]
  congr 1
  split <;> split <;> simp [segPos]

theorem indComp_flatten (hd : UData um uo o m oc) (hx : FEDataOk m oc) (hf : FunsOk o m oc)
    (ha : NoAugSum o) (K : Nat) : (procAcc o m oc K).indComp.flatten.flatten.flatten
      = segPos 0 ((List.range K).flatMap (stageSegs o m oc)) := by
  have hg : ∀ k, ((primalOf o m oc).form.addBs ((List.range k).flatMap
      (stageBlks o m oc))).g.length
      = (segRows ((List.range k).flatMap (stageSegs o m oc))).length := by
    intro k
    have hok : ∀ b ∈ (List.range k).flatMap (stageBlks o m oc), b.Ok := by
      intro b hb
      obtain ⟨k', hk', hb⟩ := List.mem_flatMap.1 hb
      simp only [stageBlks, List.mem_append, List.mem_map] at hb
      obtain (⟨e, _, rfl⟩ | hb) | hb := hb
      · exact FE.blk_ok (feDone_aligned hx hf ha k' e)
      · split at hb
        · rw [List.mem_singleton] at hb; subst hb; exact ⟨rfl, rfl⟩
        · cases hb
      · split at hb
        · rw [List.mem_singleton] at hb; subst hb; exact ⟨rfl, rfl⟩
        · cases hb
    have hal := Form.addBs_aligned (primal_aligned hd) hok
    rw [← length_mkRows hal.lbg hal.ubg]
    show (Form.rows _).length = _
    rw [Form.addBs_rows (primal_aligned hd) hok]
    have : (primalOf o m oc).form.rows = [] := rfl
    rw [this, List.nil_append]
    congr 1
    rw [segRows, List.flatMap_assoc, List.flatMap_assoc]
    congr 1
    funext k'
    exact (segRows_stage hx hf ha k').symm
  induction K with
  | zero => rfl
  | succ K ih =>
    simp only [procAcc] at ih ⊢
    rw [List.range_succ, List.map_append, List.flatten_append, List.flatten_append,
      List.flatten_append, ih, List.flatMap_append, segPos_append, List.flatMap_singleton,
      segPos_stage]
    congr 1
    simp only [List.map_cons, List.map_nil, List.flatten_cons, List.flatten_nil, List.append_nil]
    rw [hg, doneFEs, compIdxs_flatten hx hf ha, Nat.zero_add]

/-- Tagged rows of the problem. -/
noncomputable def allSegs (o : PreOpts) (m : PreModel) (oc : PreOcp) : List Seg :=
  (List.range o.nStages).flatMap (stageSegs o m oc)
    ++ ([(true, cmdRows o (globBools o m oc) (globC m oc))]
    ++ ((false, (termBlk o m oc).rows) :: (timeBlks o).map fun b => (false, b.rows)))

theorem segRows_all (hd : UData um uo o m oc) (hx : FEDataOk m oc) (hf : FunsOk o m oc)
    (ha : NoAugSum o) : segRows (allSegs o m oc) = (form5 o m oc).rows := by
  rw [form5_rows hd hx hf ha]
  unfold allSegs
  rw [segRows_append, segRows_append]
  have h1 : segRows ((List.range o.nStages).flatMap (stageSegs o m oc))
      = (allBlks o m oc).flatMap Blk.rows := by
    rw [segRows, allBlks, List.flatMap_assoc, List.flatMap_assoc]
    congr 1
    funext k
    exact segRows_stage hx hf ha k
  rw [h1]
  simp [segRows, List.flatMap_map]

theorem compIndices_eq (hd : UData um uo o m oc) (hx : FEDataOk m oc) (hf : FunsOk o m oc)
    (ha : NoAugSum o) (triv : Bool) :
    (problemOf o m oc triv).compIndices = segPos 0 (allSegs o m oc) := by
  unfold Problem.compIndices allSegs
  rw [segPos_append, segPos_append]
  congr 1
  · exact indComp_flatten hd hx hf ha _
  · have hal := form0_aligned hd hx hf ha
    have hg : (form0 o m oc).g.length
        = (segRows ((List.range o.nStages).flatMap (stageSegs o m oc))).length := by
      rw [← length_mkRows hal.lbg hal.ubg]
      show (Form.rows _).length = _
      unfold form0
      rw [Form.addBs_rows (primal_aligned hd) (allBlks_ok hx hf ha)]
      have : (primalOf o m oc).form.rows = [] := rfl
      rw [this, List.nil_append, segRows, allBlks, List.flatMap_assoc, List.flatMap_assoc]
      congr 2
      funext k
      exact (segRows_stage hx hf ha k).symm
    have hz : ∀ (n : Nat) (bs : List Blk), segPos n (bs.map fun b => (false, b.rows)) = [] := by
      intro n bs
      induction bs generalizing n with
      | nil => rfl
      | cons b bs ih => simp [segPos, ih]
    show (cmdCompIdx o (cmdVars o .boolGlob (form0 o m oc).w.length (globC m oc))
      (form0 o m oc).g.length (globC m oc)).flatten = _
    rw [cmdCompIdx_flatten _ _ (globC_ok hf), hg]
    simp [segPos, hz, isCompl, globC, globBools]

/-! ### Meaning of the tagged rows -/

theorem seqSegs_iff (hb : o.mpcc ≠ .boolean) {cs : List Cmd} (hc : ∀ c ∈ cs, CmdOk o c)
    (bs : Nat → Sym) (pos : Nat) {env : Env} (b : Bool) :
    (∀ s ∈ seqSegs o bs pos cs, s.1 = b → ∀ r ∈ s.2, Row.Sat env r) ↔
      ∀ c ∈ cs, isCompl c = b → CmdSat o env c := by
  induction cs generalizing pos with
  | nil => simp [seqSegs]
  | cons c cs ih =>
    simp only [seqSegs, List.forall_mem_cons]
    rw [cmdRows_iff hb (hc c (by simp)), ih fun c' h => hc c' (by simp [h])]

theorem seqSegs_con {cs : List Cmd} 
    (bs : Nat → Sym) (pos : Nat) {env : Env} :
    (∀ s ∈ seqSegs o bs pos cs, s.1 = false → ∀ r ∈ s.2, Row.Sat env r) ↔
      ∀ c ∈ cs, isCompl c = false → CmdSat o env c := by
  induction cs generalizing pos with
  | nil => simp [seqSegs]
  | cons c cs ih =>
    simp only [seqSegs, List.forall_mem_cons]
    refine and_congr ?_ (ih _)
    cases c with
    | con g bnd =>
      cases bnd with
      | none => exact forall_congr' fun _ => vecSat_zero rfl
      | some b => exact Iff.rfl
    | cost e => simp [cmdRows, cmdG, cmdBnd, mkRows, CmdSat]
    | compl xs y => simp [isCompl]

theorem seqSegs_bool (hm : o.mpcc = .boolean) {cs : List Cmd}
    {bs : Nat → Sym} {pos : Nat} {env : Env}
    (hr : ∀ s ∈ seqSegs o bs pos cs, s.1 = true → ∀ r ∈ s.2, Row.Sat env r)
    (hv : ∀ i, pos ≤ i → i < pos + seqNV o cs → 0 ≤ env (bs i) ∧ env (bs i) ≤ 1) :
    ∀ c ∈ cs, isCompl c = true → CmdSat o env c := by
  induction cs generalizing pos with
  | nil => simp
  | cons c cs ih =>
    simp only [seqSegs, List.forall_mem_cons] at hr
    have hnv : seqNV o (c :: cs) = cmdNV o c + seqNV o cs := by simp [seqNV]
    rw [List.forall_mem_cons]
    exact ⟨fun hcc => cmdRows_bool hm (hr.1 hcc) fun i h1 h2 => hv i h1 (by omega),
      ih hr.2 fun i h1 h2 => hv i (by omega) (by omega)⟩

theorem segs_true {env : Env} :
    (∀ s ∈ allSegs o m oc, s.1 = true → ∀ r ∈ s.2, Row.Sat env r) ↔
      (∀ k e, FEIn o k e → ∀ s ∈ feSegs o m oc k e, s.1 = true → ∀ r ∈ s.2, Row.Sat env r) ∧
      ∀ r ∈ cmdRows o (globBools o m oc) (globC m oc), Row.Sat env r := by
  unfold allSegs
  rw [List.forall_mem_append, List.forall_mem_append]
  have h1 : (∀ s ∈ [(true, cmdRows o (globBools o m oc) (globC m oc))], s.1 = true →
      ∀ r ∈ s.2, Row.Sat env r) ↔ ∀ r ∈ cmdRows o (globBools o m oc) (globC m oc), Row.Sat env r := by
    simp
  have h2 : (∀ s ∈ (false, (termBlk o m oc).rows) :: (timeBlks o).map (fun b => (false, b.rows)),
      s.1 = true → ∀ r ∈ s.2, Row.Sat env r) ↔ True := by
    simp
  rw [h1, h2, and_true]
  refine and_congr ?_ Iff.rfl
  constructor
  · intro H k e hk s hs
    exact H s (List.mem_flatMap.2 ⟨k, List.mem_range.2 hk.1, by
      unfold stageSegs
      simp only [List.mem_append, List.mem_flatMap, List.mem_range]
      exact .inl (.inl ⟨e, hk.2, hs⟩)⟩)
  · intro H s hs ht
    obtain ⟨k, hk, hs⟩ := List.mem_flatMap.1 hs
    unfold stageSegs at hs
    simp only [List.mem_append, List.mem_flatMap, List.mem_range] at hs
    obtain (⟨e, he, hs⟩ | hs) | hs := hs
    · exact H k e ⟨List.mem_range.1 hk, he⟩ s hs ht
    · split at hs
      · rw [List.mem_singleton] at hs; subst hs; cases ht
      · cases hs
    · split at hs
      · rw [List.mem_singleton] at hs; subst hs; cases ht
      · cases hs

theorem segs_false {env : Env} :
    (∀ s ∈ allSegs o m oc, s.1 = false → ∀ r ∈ s.2, Row.Sat env r) ↔
      (∀ k e, FEIn o k e → ∀ s ∈ feSegs o m oc k e, s.1 = false → ∀ r ∈ s.2, Row.Sat env r) ∧
      (o.useFesd = true → o.equidistant = true → ∀ k < o.nStages,
        ∀ r ∈ (equiBlk o k).rows, Row.Sat env r) ∧
      (o.timeFreezing = true → o.equidistant = true → ∀ k < o.nStages,
        ∀ r ∈ (tfBlk o m k).rows, Row.Sat env r) ∧
      (∀ r ∈ (termBlk o m oc).rows, Row.Sat env r) ∧
      (∀ r ∈ (timeBlks o).flatMap Blk.rows, Row.Sat env r) := by
  unfold allSegs
  rw [List.forall_mem_append, List.forall_mem_append]
  have h1 : (∀ s ∈ [(true, cmdRows o (globBools o m oc) (globC m oc))], s.1 = false →
      ∀ r ∈ s.2, Row.Sat env r) ↔ True := by simp
  have h2 : (∀ s ∈ (false, (termBlk o m oc).rows) :: (timeBlks o).map (fun b => (false, b.rows)),
      s.1 = false → ∀ r ∈ s.2, Row.Sat env r) ↔ (∀ r ∈ (termBlk o m oc).rows, Row.Sat env r) ∧
      (∀ r ∈ (timeBlks o).flatMap Blk.rows, Row.Sat env r) := by
    rw [List.forall_mem_cons]
    simp only [true_implies]
    refine and_congr Iff.rfl ?_
    simp only [List.mem_map, forall_exists_index, and_imp, forall_apply_eq_imp_iff₂, true_implies,
      List.mem_flatMap]
    exact ⟨fun H r b hb hr => H b hb r hr, fun H b hb r hr => H r b hb hr⟩
  rw [h1, h2, true_and]
  conv_rhs => rw [← and_assoc, ← and_assoc]
  refine and_congr_left fun _ => ?_
  constructor
  · intro H
    refine ⟨⟨fun k e hk s hs => ?_, fun q1 q2 k hk => ?_⟩, fun q1 q2 k hk => ?_⟩
    · exact H s (List.mem_flatMap.2 ⟨k, List.mem_range.2 hk.1, by
        unfold stageSegs
        simp only [List.mem_append, List.mem_flatMap, List.mem_range]
        exact .inl (.inl ⟨e, hk.2, hs⟩)⟩)
    · exact H (false, (equiBlk o k).rows) (List.mem_flatMap.2 ⟨k, List.mem_range.2 hk, by
        unfold stageSegs; simp [q1, q2]⟩) rfl
    · exact H (false, (tfBlk o m k).rows) (List.mem_flatMap.2 ⟨k, List.mem_range.2 hk, by
        unfold stageSegs; simp [q1, q2]⟩) rfl
  · rintro ⟨⟨H1, H2⟩, H3⟩ s hs ht
    obtain ⟨k, hk, hs⟩ := List.mem_flatMap.1 hs
    have hk := List.mem_range.1 hk
    unfold stageSegs at hs
    simp only [List.mem_append, List.mem_flatMap, List.mem_range] at hs
    obtain (⟨e, he, hs⟩ | hs) | hs := hs
    · exact H1 k e ⟨hk, he⟩ s hs ht
    · split at hs
      · rename_i hq
        rw [List.mem_singleton] at hs; subst hs; exact H2 hq.1 hq.2 k hk
      · cases hs
    · split at hs
      · rename_i hq
        rw [List.mem_singleton] at hs; subst hs; exact H3 hq.1 hq.2 k hk
      · cases hs

/-! ### The commands by tag -/

theorem forall_tag {cs : List Cmd} {b : Bool} {env : Env} (h : ∀ c ∈ cs, isCompl c = b) (b' : Bool) :
    (∀ c ∈ cs, isCompl c = b' → CmdSat o env c) ↔ (b = b' → ∀ c ∈ cs, CmdSat o env c) := by
  constructor
  · intro H hb c hc; exact H c hc (by rw [h c hc, hb])
  · intro H c hc hb; exact H (by rw [← h c hc, hb]) c hc

theorem tag_lift (k e : Nat) : ∀ c ∈ liftC o m.dims k e, isCompl c = false := by
  intro c hc
  unfold liftC at hc
  split at hc
  · obtain ⟨j, _, rfl⟩ := List.mem_map.1 hc; rfl
  · cases hc
theorem tag_path (k e : Nat) : ∀ c ∈ pathC o m oc k e, isCompl c = false := by
  intro c hc
  simp only [pathC, List.mem_append] at hc
  rcases hc with hc | hc
  · split at hc
    · rw [List.mem_singleton] at hc; subst hc; rfl
    · cases hc
  · split at hc
    · obtain ⟨j, _, rfl⟩ := List.mem_map.1 hc; rfl
    · cases hc
theorem tag_cont (k e : Nat) : ∀ c ∈ contC o m.dims k e, isCompl c = false := by
  intro c hc
  unfold contC at hc
  split at hc
  · rw [List.mem_singleton] at hc; subst hc; rfl
  · cases hc
theorem tag_bound (k e : Nat) : ∀ c ∈ boundC o m k e, isCompl c = false := by
  intro c hc
  unfold boundC at hc
  split at hc
  · rw [List.mem_singleton] at hc; subst hc; rfl
  · cases hc
theorem tag_stage (k e : Nat) :
    ∀ c ∈ (List.range o.nS).flatMap (stageC o m oc k e), isCompl c = false := by
  intro c hc
  obtain ⟨j, _, hc⟩ := List.mem_flatMap.1 hc
  simp only [stageC, List.mem_cons, List.not_mem_nil, or_false] at hc
  rcases hc with rfl | rfl | rfl <;> rfl
theorem tag_pathComp (k e : Nat) : ∀ c ∈ pathCompC o m oc k e, isCompl c = true := by
  intro c hc
  simp only [pathCompC, List.mem_append] at hc
  rcases hc with hc | hc
  · obtain ⟨j, _, rfl⟩ := List.mem_map.1 hc; rfl
  · split at hc
    · rw [List.mem_singleton] at hc; subst hc; rfl
    · cases hc
theorem tag_cross (k e : Nat) : ∀ c ∈ crossC o m.dims k e, isCompl c = true := by
  intro c hc
  unfold crossC at hc
  split at hc
  · obtain ⟨j, _, rfl⟩ := List.mem_map.1 hc; rfl
  · split at hc
    · obtain ⟨j, _, hc⟩ := List.mem_flatMap.1 hc
      rw [List.mem_cons] at hc
      rcases hc with rfl | hc
      · rfl
      · obtain ⟨j', _, rfl⟩ := List.mem_map.1 hc; rfl
    · obtain ⟨j, _, rfl⟩ := List.mem_map.1 hc; rfl

theorem stepEq_true {env : Env} (k e : Nat) :
    (∀ c ∈ stepEqC o m.dims k e, isCompl c = true → CmdSat o env c) ↔
    (o.useFesd = true → o.stepEq = .directComplementarity → 0 < e →
        Compl o env [nuOf o m.dims k e env] (hVal o k e env - hVal o k (e - 1) env)) ∧
    (o.useFesd = true → o.stepEq = .heuristicDeltaHComp →
      0 < e → Compl o env [0] (hVal o k e env - hVal o k (e - 1) env)) := by
  unfold stepEqC
  by_cases hu : o.useFesd = false
  · simp [hu]
  · rw [if_neg hu]
    have hu' : o.useFesd = true := by simpa using hu
    simp only [hu', true_implies]
    cases hs : o.stepEq <;> by_cases h0 : e = 0 <;>
      simp [h0, CmdSat, nuVal_eq, Compl, at', Nat.pos_iff_ne_zero, const, isCompl]

theorem stepEq_false {env : Env} (k e : Nat) :
    (∀ c ∈ stepEqC o m.dims k e, isCompl c = false → CmdSat o env c) ↔
    (o.useFesd = true → o.stepEq = .direct → 0 < e →
      nuOf o m.dims k e env * (hVal o k e env - hVal o k (e - 1) env) = 0) := by
  unfold stepEqC
  by_cases hu : o.useFesd = false
  · simp [hu]
  · rw [if_neg hu]
    have hu' : o.useFesd = true := by simpa using hu
    simp only [hu', true_implies]
    cases hs : o.stepEq <;> by_cases h0 : e = 0 <;>
      simp [h0, CmdSat, nuVal_eq, Nat.pos_iff_ne_zero, isCompl]

theorem rowHolds_iff {f : Form} {env : Env} (hl : f.lbg.length = f.g.length)
    (hu : f.ubg.length = f.g.length) {i : Nat} (hi : i < f.g.length) :
    RowHolds f env i ↔ ∀ r, f.rows[i]? = some r → Row.Sat env r := by
  have hr : f.rows[i]? = some (f.g[i], f.lbg[i], f.ubg[i]) := by
    unfold Form.rows mkRows
    rw [List.getElem?_eq_getElem (by simp; omega)]
    simp
  rw [hr]
  unfold RowHolds
  constructor
  · rintro ⟨g, lb, ub, h1, h2, h3, h4, h5⟩ r hr
    cases hr
    rw [List.getElem?_eq_getElem hi] at h1
    rw [List.getElem?_eq_getElem (by omega)] at h2 h3
    cases h1; cases h2; cases h3
    exact ⟨h4, h5⟩
  · intro H
    obtain ⟨h4, h5⟩ := H _ rfl
    exact ⟨_, _, _, List.getElem?_eq_getElem hi, List.getElem?_eq_getElem (by omega),
      List.getElem?_eq_getElem (by omega), h4, h5⟩

end

/-! ### For a successful construction -/
section
variable {colloc : IrkScheme → Nat → List ℝ} {o : Opts} {um : UserModel} {uo : Option UserOcp}
  {po : PreOpts} {m : PreModel} {oc : PreOcp} {P : Problem} {env : Env}

theorem Built.aligned (h : Built colloc o um uo po m oc P)
    (he : po.constraintHandling = .exact) : P.form.Aligned := by
  obtain ⟨nC, nF, g, up, f0, acc, hp⟩ := h.pre
  rw [h.form he]
  exact form5_aligned (hp.udata h.ocp) (h.data.fe h.ok.primal) h.funs h.ok.aug

theorem Built.comp_sorted (h : Built colloc o um uo po m oc P) :
    P.compIndices.Pairwise (· < ·) := by
  obtain ⟨nC, nF, g, up, f0, acc, hp⟩ := h.pre
  rw [h.eq, compIndices_eq (hp.udata h.ocp) (h.data.fe h.ok.primal) h.funs h.ok.aug]
  exact segPos_sorted _ _

theorem Built.comp_lt (h : Built colloc o um uo po m oc P)
    (he : po.constraintHandling = .exact) : ∀ i ∈ P.compIndices, i < P.form.g.length := by
  obtain ⟨nC, nF, g, up, f0, acc, hp⟩ := h.pre
  have hal := h.aligned he
  rw [← length_mkRows hal.lbg hal.ubg]
  show ∀ i ∈ P.compIndices, i < P.form.rows.length
  rw [h.form he, ← segRows_all (hp.udata h.ocp) (h.data.fe h.ok.primal) h.funs h.ok.aug, h.eq,
    compIndices_eq (hp.udata h.ocp) (h.data.fe h.ok.primal) h.funs h.ok.aug]
  intro i hi
  have := (segPos_bounds hi).2
  omega

theorem Built.comp_rows (h : Built colloc o um uo po m oc P)
    (he : po.constraintHandling = .exact) :
    ((∀ i ∈ P.compIndices, RowHolds P.form env i) ↔
      ∀ s ∈ allSegs po m oc, s.1 = true → ∀ r ∈ s.2, Row.Sat env r) ∧
    ((∀ i < P.form.g.length, i ∉ P.compIndices → RowHolds P.form env i) ↔
      ∀ s ∈ allSegs po m oc, s.1 = false → ∀ r ∈ s.2, Row.Sat env r) := by
  obtain ⟨nC, nF, g, up, f0, acc, hp⟩ := h.pre
  have hal := h.aligned he
  have hlt := h.comp_lt he
  have hd := hp.udata h.ocp
  have hx := h.data.fe h.ok.primal
  have hlen : P.form.g.length = (segRows (allSegs po m oc)).length := by
    rw [← length_mkRows hal.lbg hal.ubg, segRows_all hd hx h.funs h.ok.aug, ← h.form he]
    rfl
  have hrows : P.form.rows = segRows (allSegs po m oc) := by
    rw [segRows_all hd hx h.funs h.ok.aug, h.form he]
  have hpos : P.compIndices = segPos 0 (allSegs po m oc) := by
    rw [h.eq, compIndices_eq hd hx h.funs h.ok.aug]
  obtain ⟨i1, i2⟩ := segPos_all (a := allSegs po m oc) (Q := Row.Sat env) 0
  constructor
  · rw [← i1, ← hpos]
    refine forall₂_congr fun i hi => ?_
    rw [rowHolds_iff hal.lbg hal.ubg (hlt i hi), hrows]
    simp
  · rw [← i2, ← hpos, ← hlen]
    simp only [Nat.zero_le, true_implies, Nat.zero_add]
    refine forall_congr' fun i => forall_congr' fun hi => forall_congr' fun _ => ?_
    rw [rowHolds_iff hal.lbg hal.ubg hi, hrows]
    simp

theorem compl_iff_cmds (h : Built colloc o um uo po m oc P) 
    (hs : ∀ r ∈ (uo.getD UserOcp.trivial).gPathComp, r.Sound m.dims) :
    ((∀ k e, FEIn po k e → ∀ c ∈ feCmds po m oc k e, isCompl c = true → CmdSat po env c) ∧
      CmdSat po env (globC m oc)) ↔ ComplSpec po m.dims (uo.getD UserOcp.trivial) env := by
  obtain ⟨nC, nF, g, up, f0, acc, hp⟩ := h.pre
  have key : ∀ k e, (∀ c ∈ feCmds po m oc k e, isCompl c = true → CmdSat po env c) ↔
      ((∀ c ∈ pathCompC po m oc k e, CmdSat po env c) ∧
        (∀ c ∈ crossC po m.dims k e, CmdSat po env c)) ∧
      ∀ c ∈ stepEqC po m.dims k e, isCompl c = true → CmdSat po env c := by
    intro k e
    unfold feCmds
    simp only [List.forall_mem_append]
    rw [forall_tag (tag_lift k e), forall_tag (tag_stage k e), forall_tag (tag_cont k e),
      forall_tag (tag_path k e), forall_tag (tag_bound k e), forall_tag (tag_pathComp k e),
      forall_tag (tag_cross k e)]
    simp only [Bool.false_eq_true, false_implies, true_and, true_implies]
  simp only [key, stepEq_true, fe_pathComp hp h.ocp h.ok.z hs, fe_cross]
  rw [globComp_iff h.ocp hs]
  constructor
  · rintro ⟨H, hg⟩
    exact ⟨fun k e hk => (H k e hk).1.1.1, fun k e hk => (H k e hk).1.1.2, hg,
      fun q k e hk => (H k e hk).1.2.1 q, fun q q' k e hk => (H k e hk).1.2.2.1 q q',
      fun q q' k e hk => (H k e hk).1.2.2.2 q q', fun q q' k e hk => (H k e hk).2.1 q q',
      fun q q' k e hk => (H k e hk).2.2 q q'⟩
  · intro S
    exact ⟨fun k e hk => ⟨⟨⟨S.stageComp k e hk, S.ctrlComp k e hk⟩, fun q => S.compStd q k e hk,
      fun q q' => S.compAll q q' k e hk, fun q q' => S.compSum q q' k e hk⟩,
      fun q q' => S.stepDirectComp q q' k e hk, fun q q' => S.stepHComp q q' k e hk⟩, S.globComp⟩

theorem smooth_iff_cmds (h : Built colloc o um uo po m oc P) (ha : AlphaOk um) :
    ((∀ k e, FEIn po k e → ∀ s ∈ feSegs po m oc k e, s.1 = false → ∀ r ∈ s.2, Row.Sat env r) ∧
      (po.useFesd = true → po.equidistant = true → ∀ k < po.nStages,
        ∀ r ∈ (equiBlk po k).rows, Row.Sat env r) ∧
      (po.timeFreezing = true → po.equidistant = true → ∀ k < po.nStages,
        ∀ r ∈ (tfBlk po m k).rows, Row.Sat env r) ∧
      (∀ r ∈ (termBlk po m oc).rows, Row.Sat env r) ∧
      (∀ r ∈ (timeBlks po).flatMap Blk.rows, Row.Sat env r)) ↔
    SmoothSpec po m.dims um (uo.getD UserOcp.trivial) env := by
  obtain ⟨nC, nF, g, up, f0, acc, hp⟩ := h.pre
  have key : ∀ k e, (∀ s ∈ feSegs po m oc k e, s.1 = false → ∀ r ∈ s.2, Row.Sat env r) ↔
      (((((∀ c ∈ liftC po m.dims k e, CmdSat po env c) ∧
        (∀ c ∈ (List.range po.nS).flatMap (stageC po m oc k e), CmdSat po env c)) ∧
        (∀ c ∈ contC po m.dims k e, CmdSat po env c)) ∧
        (∀ c ∈ pathC po m oc k e, CmdSat po env c)) ∧
        (∀ c ∈ boundC po m k e, CmdSat po env c)) ∧
      ∀ c ∈ stepEqC po m.dims k e, isCompl c = false → CmdSat po env c := by
    intro k e
    unfold feSegs
    rw [seqSegs_con]
    unfold feCmds
    simp only [List.forall_mem_append]
    rw [forall_tag (tag_lift k e), forall_tag (tag_stage k e), forall_tag (tag_cont k e),
      forall_tag (tag_path k e), forall_tag (tag_bound k e), forall_tag (tag_pathComp k e),
      forall_tag (tag_cross k e)]
    simp only [Bool.true_eq_false, false_implies, and_true, true_implies]
  simp only [key, stepEq_false, fe_lift, fe_stage hp h.ok.z ha, fe_cont,
      fe_path h.ocp (hp.udata h.ocp), fe_bound hp h.ok.z, equi_rows, tf_rows, term_rows, time_rows]
  rw [tf_iff hp, gT_eq h.ocp, forall_vec, totalTime_eq]
  constructor
  · rintro ⟨H, h1, h2, h3, h4⟩
    exact ⟨fun k e hk => (H k e hk).1.1.1.1.2.1, fun k e hk => (H k e hk).1.1.1.1.2.2,
      fun q k e hk => (H k e hk).1.1.1.1.1 q, fun q k e hk => (H k e hk).1.1.1.2 (by rwa [← ownEnd_eq]),
      fun q q' k e hk => (H k e hk).1.2 q q', fun k e hk => (H k e hk).1.1.2.1,
      fun q k e hk => (H k e hk).1.1.2.2 q, fun q q' k e hk => (H k e hk).2 q q', h1, h4, h2, h3⟩
  · intro S
    exact ⟨fun k e hk => ⟨⟨⟨⟨⟨fun q => S.lift q k e hk, S.alg k e hk, S.rk k e hk⟩,
      fun q => S.cont (by rwa [ownEnd_eq]) k e hk⟩, S.pathEnd k e hk, fun q => S.pathStage q k e hk⟩,
      fun q q' => S.boundary q q' k e hk⟩, fun q q' => S.stepDirect q q' k e hk⟩,
      S.equi, S.freeze, S.term, S.time⟩

theorem Built.compl_iff (h : Built colloc o um uo po m oc P)
    (he : po.constraintHandling = .exact) (hb : po.mpcc ≠ .boolean)
    (hs : ∀ r ∈ (uo.getD UserOcp.trivial).gPathComp, r.Sound m.dims) :
    (∀ i ∈ P.compIndices, RowHolds P.form env i) ↔
      ComplSpec po m.dims (uo.getD UserOcp.trivial) env := by
  rw [(h.comp_rows he).1, segs_true, ← compl_iff_cmds h hs]
  refine and_congr ?_ (cmdRows_iff hb (globC_ok h.funs) _)
  exact forall₃_congr fun k e _ => seqSegs_iff hb (feCmds_ok h.funs h.ok.aug k e) _ _ _

theorem Built.smooth_iff (h : Built colloc o um uo po m oc P)
    (he : po.constraintHandling = .exact) (ha : AlphaOk um) :
    (∀ i < P.form.g.length, i ∉ P.compIndices → RowHolds P.form env i) ↔
      SmoothSpec po m.dims um (uo.getD UserOcp.trivial) env := by
  rw [(h.comp_rows he).2, segs_false, smooth_iff_cmds h ha]

end
end Nosnoc
