import Verif.Proofs.Reads
/-
Helper lemmas: closed form of the first construction phase (variables).
-/
namespace Nosnoc

variable {o : PreOpts} {m : PreModel} {oc : PreOcp}

/-- The `prev_fe` pointer of element `(k, e)`. -/
def prevRef (o : PreOpts) (k e : Nat) : FERef := match prevFe o k e with
  | some (k', e') => .fe k' e'
  | none => .zero

/-- The finite elements of stage `k` right after their construction. -/
noncomputable def stageFEs (o : PreOpts) (m : PreModel) (oc : PreOcp) (k : Nat) : List FE :=
  (List.range (nfe o k)).map fun e => feInit o m oc k e (prevRef o k e)

theorem prevRef_succ (k e : Nat) : prevRef o k (e + 1) = .fe k e := by
  simp [prevRef, prevFe]

theorem createFEs_ok (hn : 0 < o.nS) (hd : FEDataOk m oc) (k n ii : Nat) :
    createFEs o m oc k n ii (prevRef o k ii)
      = .ok ((List.range' ii n).map fun e => feInit o m oc k e (prevRef o k e)) := by
  induction n generalizing ii with
  | zero => rfl
  | succ n ih =>
    rw [createFEs, FE.init_ok o m oc k ii hn hd, ok_bind, ← prevRef_succ (o := o), ih, ok_bind]
    rfl

/-- Problem-level variables of control stage `k`. -/
def headSyms (o : PreOpts) (d : Dims) (k : Nat) : List Sym :=
  blk d.nU (.u k) ++ (if o.sot = .local then [.sot k] else [])

noncomputable def headLb (o : PreOpts) (oc : PreOcp) : List EReal :=
  oc.lbu ++ (if o.sot = .local then [((o.sotMin : ℝ) : EReal)] else [])
noncomputable def headUb (o : PreOpts) (oc : PreOcp) : List EReal :=
  oc.ubu ++ (if o.sot = .local then [((o.sotMax : ℝ) : EReal)] else [])
noncomputable def headInit (o : PreOpts) (oc : PreOcp) : List ℝ :=
  oc.uGuess ++ (if o.sot = .local then [1] else [])

/-- Length of `headSyms`. -/
def headLen (o : PreOpts) (d : Dims) : Nat := d.nU + (if o.sot = .local then 1 else 0)

@[simp] theorem length_headSyms (d : Dims) (k : Nat) :
    (headSyms o d k).length = headLen o d := by
  unfold headSyms headLen; split <;> simp

theorem length_flatMap_head (d : Dims) (K : Nat) :
    ((List.range K).flatMap (headSyms o d)).length = K * headLen o d := by
  induction K with
  | zero => simp
  | succ K ih => rw [List.range_succ, List.flatMap_append, List.length_append, ih]; simp; ring

/-- The form after creating stages `0 … K-1`. -/
noncomputable def Form.heads (f : Form) (o : PreOpts) (d : Dims) (oc : PreOcp) (K : Nat) : Form :=
  { f with w := f.w ++ (List.range K).flatMap (headSyms o d)
           lbw := f.lbw ++ (List.range K).flatMap (fun _ => headLb o oc)
           ubw := f.ubw ++ (List.range K).flatMap (fun _ => headUb o oc)
           w0 := f.w0 ++ (List.range K).flatMap (fun _ => headInit o oc) }

noncomputable def primalAcc (f : Form) (o : PreOpts) (m : PreModel) (oc : PreOcp) (K : Nat) :
    PrimalAcc where
  form := f.heads o m.dims oc K
  indU := (List.range K).map fun k => List.range' (f.w.length + k * headLen o m.dims) m.dims.nU
  indSot := if o.sot = .local then
      (List.range K).map fun k => List.range' (f.w.length + k * headLen o m.dims + m.dims.nU) 1
    else []
  stages := (List.range K).map (stageFEs o m oc)
  prev := prevRef o K 0

/-- The control data have the right lengths. -/
structure CtrlDataOk (d : Dims) (oc : PreOcp) : Prop where
  lbu : oc.lbu.length = d.nU
  ubu : oc.ubu.length = d.nU
  uGuess : oc.uGuess.length = d.nU

theorem listGet_ok {α : Type} {l : List α} {k : Nat} (h : k < l.length) :
    listGet l k = .ok l[k] := by simp [listGet, h]

theorem listGet_eq_ok {α : Type} {l : List α} {k : Nat} {a : α} :
    listGet l k = .ok a ↔ l[k]? = some a := by
  unfold listGet; cases h : l[k]? <;> simp

theorem check_ok {p : Prop} [Decidable p] {e : PyErr} (h : p) : check p e = .ok () := by
  simp [check, h]
theorem check_eq_ok {p : Prop} [Decidable p] {e : PyErr} {u : Unit} :
    check p e = .ok u ↔ p := by
  unfold check; split <;> simp_all

theorem nfe_eq {k : Nat} (h : k < o.nfeList.length) : nfe o k = o.nfeList[k] := by
  simp [nfe, h]

theorem createControlStage_ok (hn : 0 < o.nS) (hd : FEDataOk m oc) (hc : CtrlDataOk m.dims oc)
    (f : Form) (K : Nat) (hK : K < o.nfeList.length) (hp : 0 < nfe o K) :
    createControlStage o m oc (primalAcc f o m oc K) K = .ok (primalAcc f o m oc (K + 1)) := by
  have hprev : prevRef o (K + 1) 0 = .fe K (nfe o K - 1) := by simp [prevRef, prevFe]
  unfold createControlStage
  have h1 := (Form.addVariable_eq_ok (f := (primalAcc f o m oc K).form)
    (syms := blk m.dims.nU (.u K)) (lb := oc.lbu) (ub := oc.ubu) (init := oc.uGuess)).2
    ⟨⟨by simp [hc.lbu], by simp [hc.ubu], by simp [hc.uGuess]⟩, rfl, rfl⟩
  rw [h1]
  have hlen : (primalAcc f o m oc K).form.w.length = f.w.length + K * headLen o m.dims := by
    simp only [primalAcc, Form.heads, List.length_append, length_flatMap_head]
  by_cases hs : o.sot = .local
  · simp only [hs, if_true, ok_bind]
    rw [(Form.addVariable_eq_ok (syms := [Sym.sot K]) (lb := [((o.sotMin : ℝ) : EReal)])
      (ub := [((o.sotMax : ℝ) : EReal)]) (init := [(1 : ℝ)])).2
      ⟨⟨rfl, rfl, rfl⟩, rfl, rfl⟩]
    simp only [ok_bind, listGet_ok hK, ← nfe_eq hK]
    rw [show (primalAcc f o m oc K).prev = prevRef o K 0 from rfl, createFEs_ok hn hd]
    simp only [ok_bind, check_ok hp]
    simp only [hlen]
    simp only [primalAcc, Form.heads, List.range_succ, List.flatMap_append, List.map_append,
      headSyms, headLb, headUb, headInit, hs, if_true, List.flatMap_singleton,
      List.append_assoc, hprev, stageFEs, List.range_eq_range', List.map_cons, List.map_nil]
    simp
    simp [← Nat.add_assoc]
  · simp only [hs, if_false, ok_bind]
    simp only [listGet_ok hK, ok_bind, ← nfe_eq hK]
    rw [show (primalAcc f o m oc K).prev = prevRef o K 0 from rfl, createFEs_ok hn hd]
    simp only [ok_bind, check_ok hp]
    simp only [hlen]
    simp only [primalAcc, Form.heads, List.range_succ, List.flatMap_append, List.map_append,
      headSyms, headLb, headUb, headInit, hs, if_false, List.flatMap_singleton,
      List.append_assoc, hprev, stageFEs, List.range_eq_range', List.map_cons, List.map_nil]
    simp

theorem createControlStage_of_ok {acc acc' : PrimalAcc} {K : Nat}
    (h : createControlStage o m oc acc K = .ok acc') : K < o.nfeList.length ∧ 0 < nfe o K := by
  have key : ∃ n, listGet o.nfeList K = .ok n ∧ 0 < n := by
    unfold createControlStage at h
    by_cases hs : o.sot = .local
    · simp only [hs, if_true, bind_eq_ok] at h
      obtain ⟨a, _, b, _, c, _, n, hn, fes, _, _, hc, _⟩ := h
      exact ⟨n, hn, check_eq_ok.1 hc⟩
    · simp only [hs, if_false, bind_eq_ok] at h
      obtain ⟨a, _, c, _, n, hn, fes, _, _, hc, _⟩ := h
      exact ⟨n, hn, check_eq_ok.1 hc⟩
  obtain ⟨n, hn, hc⟩ := key
  rw [listGet_eq_ok] at hn
  obtain ⟨hlt, hv⟩ := List.getElem?_eq_some_iff.1 hn
  exact ⟨hlt, by rw [nfe_eq hlt, hv]; exact hc⟩

/-- The creation of the control stages succeeds exactly when every stage has an entry in
`Nfe_list` and at least one element; its result. -/
theorem createStages_iff (hn : 0 < o.nS) (hd : FEDataOk m oc) (hc : CtrlDataOk m.dims oc)
    (f : Form) (K : Nat) (acc : PrimalAcc) :
    (List.range K).foldlM (createControlStage o m oc) (primalAcc f o m oc 0) = .ok acc ↔
      (∀ k < K, k < o.nfeList.length ∧ 0 < nfe o k) ∧ acc = primalAcc f o m oc K := by
  induction K generalizing acc with
  | zero =>
    simp only [List.range_zero, List.foldlM_nil, pure_eq]
    constructor
    · intro h; cases h; exact ⟨by simp, rfl⟩
    · rintro ⟨_, rfl⟩; rfl
  | succ K ih =>
    rw [List.range_succ, List.foldlM_append, bind_eq_ok]
    constructor
    · rintro ⟨acc', h1, h2⟩
      obtain ⟨hk, rfl⟩ := (ih acc').1 h1
      rw [List.foldlM_cons, bind_eq_ok] at h2
      obtain ⟨acc'', h2, h3⟩ := h2
      cases h3
      have hK := createControlStage_of_ok h2
      rw [createControlStage_ok hn hd hc f K hK.1 hK.2] at h2
      cases h2
      refine ⟨?_, rfl⟩
      intro k hk'
      rcases Nat.lt_succ_iff_lt_or_eq.1 hk' with h | rfl
      · exact hk k h
      · exact hK
    · rintro ⟨hk, rfl⟩
      refine ⟨_, (ih _).2 ⟨fun k h => hk k (by omega), rfl⟩, ?_⟩
      rw [List.foldlM_cons, createControlStage_ok hn hd hc f K
        (hk K (by omega)).1 (hk K (by omega)).2]
      rfl

/-- Global variables (elastic slack, `v_global`). -/
def globSyms (o : PreOpts) (d : Dims) : List Sym :=
  (if isElastic o.mpcc then [.sElastic] else []) ++ d.mV

noncomputable def globForm (o : PreOpts) (d : Dims) (oc : PreOcp) : Form :=
  { Form.empty with
    w := globSyms o d
    lbw := (if isElastic o.mpcc then [((o.sElasticMin : ℝ) : EReal)] else []) ++ oc.lbv
    ubw := (if isElastic o.mpcc then [((o.sElasticMax : ℝ) : EReal)] else []) ++ oc.ubv
    w0 := (if isElastic o.mpcc then [o.sElastic0] else []) ++ oc.vGuess }

def nEl (o : PreOpts) : Nat := if isElastic o.mpcc then 1 else 0

/-- The result of the first phase. -/
noncomputable def primalOf (o : PreOpts) (m : PreModel) (oc : PreOcp) : Primal where
  form := (globForm o m.dims oc).heads o m.dims oc o.nStages
  p := pHead o m.dims ++ (lam00Row o m.dims .lam ++ lam00Row o m.dims .lamN
    ++ lam00Row o m.dims .lamP) ++ blk m.dims.nX .x0
  hp := ⟨fe0Init o.pss m, (List.range o.nStages).map (stageFEs o m oc)⟩
  indU := (primalAcc (globForm o m.dims oc) o m oc o.nStages).indU
  indSot := (primalAcc (globForm o m.dims oc) o m oc o.nStages).indSot
  indVGlobal := [List.range' (nEl o) m.dims.nV]
  indElastic := if isElastic o.mpcc then [[0]] else []

/-- The lengths of the data for `v_global`. -/
structure GlobDataOk (d : Dims) (oc : PreOcp) : Prop where
  lbv : oc.lbv.length = d.nV
  ubv : oc.ubv.length = d.nV
  vGuess : oc.vGuess.length = d.nV

/-- Lengths checked by the preprocessing of model and ocp (everything except `x0`). -/
structure DataOk (m : PreModel) (oc : PreOcp) : Prop where
  lbx : oc.lbx.length = m.dims.nX
  ubx : oc.ubx.length = m.dims.nX
  z0 : m.z0.length = m.dims.nZ
  lbz : m.lbz.length = m.dims.nZ
  ubz : m.ubz.length = m.dims.nZ
  ctrl : CtrlDataOk m.dims oc
  glob : GlobDataOk m.dims oc

/-- When does the creation of the variables succeed? -/
structure PrimalOk (o : PreOpts) (m : PreModel) : Prop where
  stages : o.nStages ≠ 0
  x0 : m.x0.length = m.dims.nX
  sot : o.sot ≠ .global
  nfe : ∀ k < o.nStages, k < o.nfeList.length ∧ 0 < Nosnoc.nfe o k

theorem elasticVar_ok : elasticVar o = .ok
    ({ Form.empty with
        w := if isElastic o.mpcc then [.sElastic] else []
        lbw := if isElastic o.mpcc then [((o.sElasticMin : ℝ) : EReal)] else []
        ubw := if isElastic o.mpcc then [((o.sElasticMax : ℝ) : EReal)] else []
        w0 := if isElastic o.mpcc then [o.sElastic0] else [] },
      if isElastic o.mpcc then [[0]] else []) := by
  unfold elasticVar
  by_cases h : isElastic o.mpcc = true
  · simp only [h, if_true]
    rw [(Form.addVariable_eq_ok (syms := [Sym.sElastic])
      (lb := [((o.sElasticMin : ℝ) : EReal)])
      (ub := [((o.sElasticMax : ℝ) : EReal)]) (init := [o.sElastic0])).2
      ⟨⟨rfl, rfl, rfl⟩, rfl, rfl⟩]
    simp [Form.empty]
  · simp [h, Form.empty]

theorem createPrimal_iff (hn : 0 < o.nS) (hd : DataOk m oc) (pr : Primal) :
    createPrimal o m oc = .ok pr ↔ PrimalOk o m ∧ pr = primalOf o m oc := by
  have hx : ∀ (hx : m.x0.length = m.dims.nX), FEDataOk m oc := fun hx =>
    ⟨hx, hd.lbx, hd.ubx, hd.z0, hd.lbz, hd.ubz⟩
  have hfe0x : (fe0Init o.pss m).get1 .x (.nat 0) = .ok ((fe0Init o.pss m).ind (.one .x 0)) := rfl
  have hg0 : gather (fe0Init o.pss m).form.w ((fe0Init o.pss m).ind (.one .x 0))
      = .ok (blk m.dims.nX .x0) := by
    rw [fe0Init_gather (by simp [FE.inRange, FE.blank0])]; rfl
  have hv : Form.addVariable
      { Form.empty with
        w := if isElastic o.mpcc then [.sElastic] else []
        lbw := if isElastic o.mpcc then [((o.sElasticMin : ℝ) : EReal)] else []
        ubw := if isElastic o.mpcc then [((o.sElasticMax : ℝ) : EReal)] else []
        w0 := if isElastic o.mpcc then [o.sElastic0] else [] }
      m.dims.mV oc.lbv oc.ubv oc.vGuess
      = .ok (globForm o m.dims oc, List.range' (nEl o) m.dims.nV) := by
    rw [Form.addVariable_eq_ok]
    refine ⟨⟨by simp [Dims.mV, hd.glob.lbv], by simp [Dims.mV, hd.glob.ubv],
      by simp [Dims.mV, hd.glob.vGuess]⟩, by simp [globForm, globSyms], ?_⟩
    simp only [Dims.mV, length_blk]
    congr 1
    unfold nEl; split <;> rfl
  have h0 : (⟨globForm o m.dims oc, [], [], [], .zero⟩ : PrimalAcc)
      = primalAcc (globForm o m.dims oc) o m oc 0 := by
    simp [primalAcc, Form.heads, prevRef, prevFe]
  unfold createPrimal
  constructor
  · intro h
    simp only [bind_eq_ok, elasticVar_ok] at h
    obtain ⟨_, h1, fe0i, h2, fe0, h3, l00, h4, x00, h5, x0, h6, f1, h7, _, h8, acc, h9, h10⟩ := h
    rw [check_eq_ok] at h1 h8
    cases h2
    have hx0 := FE.init0_of_ok h3
    rw [FE.init0_ok hx0] at h3
    cases h3
    rw [lambda00Syms_ok] at h4; cases h4
    rw [hfe0x] at h5; cases h5
    rw [hg0] at h6; cases h6
    simp only [hv] at h7; cases h7
    simp only [h0] at h9
    rw [createStages_iff hn (hx hx0) hd.ctrl] at h9
    obtain ⟨hk, rfl⟩ := h9
    cases h10
    exact ⟨⟨h1, hx0, h8, hk⟩, rfl⟩
  · rintro ⟨hp, rfl⟩
    rw [check_ok hp.stages, elasticVar_ok, FE.init0_ok hp.x0]
    simp only [ok_bind]
    rw [lambda00Syms_ok, hfe0x]
    simp only [ok_bind]
    rw [hg0]
    simp only [ok_bind]
    rw [hv]
    simp only [ok_bind]
    rw [check_ok hp.sot, h0, (createStages_iff hn (hx hp.x0) hd.ctrl _ _ _).2 ⟨hp.nfe, rfl⟩]
    rfl

end Nosnoc
