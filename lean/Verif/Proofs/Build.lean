import Verif.Proofs.Process
/-
Helper lemmas: the whole construction in closed form.
-/
namespace Nosnoc

/-- A group of constraints (with bounds) and a cost term. -/
structure Blk where
  g : Vec
  lb : List EReal
  ub : List EReal
  cost : Expr

def Blk.Ok (b : Blk) : Prop := b.lb.length = b.g.length ∧ b.ub.length = b.g.length
def Blk.rows (b : Blk) : List Row := mkRows b.g b.lb b.ub

def Form.addB (f : Form) (b : Blk) : Form :=
  { f with
    g := f.g ++ b.g
    lbg := f.lbg ++ b.lb
    ubg := f.ubg ++ b.ub
    cost := fun env => f.cost env + b.cost env }

def Form.addBs (f : Form) (bs : List Blk) : Form := bs.foldl Form.addB f

/-- The constraints and cost of a finite element as block. -/
def FE.blk (fe : FE) : Blk := ⟨fe.form.g, fe.form.lbg, fe.form.ubg, fe.form.cost⟩

section
variable {o : PreOpts} {m : PreModel} {oc : PreOcp}

/-- Element `(k, e)` after processing. -/
noncomputable def feDone (o : PreOpts) (m : PreModel) (oc : PreOcp) (k e : Nat) : FE :=
  (feCmds o m oc k e).foldl (execFE o) (feOf o m oc k e)

theorem feOf_aligned (hx : FEDataOk m oc) (k e : Nat) :
    (feOf o m oc k e).form.Aligned := by
  have hcalls : ∀ c ∈ feCalls o m oc k e, c.Ok := by
    rw [feCalls_eq o m oc k e]
    intro c hc
    obtain ⟨s, hs, rfl⟩ := List.mem_map.1 hc
    exact slotCall_ok hx hs
  have hgen : ∀ (cs : List VarCall) (f : Form), f.Aligned → (∀ c ∈ cs, c.Ok) →
      (f.extend cs).Aligned := by
    intro cs f hf hcs
    have hsum : ∀ (φ : VarCall → Nat), (∀ c ∈ cs, φ c = c.syms.length) →
        (cs.map φ).sum = (cs.map fun c => c.syms.length).sum := by
      intro φ hφ
      rw [List.map_congr_left hφ]
    constructor
    · simp only [Form.extend, List.length_append, List.length_flatMap, hf.lbw]
      rw [hsum _ fun c hc => (hcs c hc).1]
    · simp only [Form.extend, List.length_append, List.length_flatMap, hf.ubw]
      rw [hsum _ fun c hc => (hcs c hc).2.1]
    · simp only [Form.extend, List.length_append, List.length_flatMap, hf.w0]
      rw [hsum _ fun c hc => (hcs c hc).2.2]
    · exact hf.lbg
    · exact hf.ubg
  have hb : (FE.blank o m.dims k e (prevRef o k e)).form.Aligned := by
    unfold FE.blank
    by_cases h : o.useFesd = true <;> simp [h, Form.empty] <;> constructor <;> rfl
  exact hgen _ _ hb hcalls

/-! ### Processing of one control stage -/

theorem Form.addBs_append (f : Form) (a b : List Blk) :
    f.addBs (a ++ b) = (f.addBs a).addBs b := by simp [Form.addBs]

@[simp] theorem Form.addBs_w (f : Form) (bs : List Blk) : (f.addBs bs).w = f.w := by
  induction bs generalizing f with
  | nil => rfl
  | cons b bs ih => exact (ih (f.addB b)).trans rfl
@[simp] theorem Form.addBs_lbw (f : Form) (bs : List Blk) : (f.addBs bs).lbw = f.lbw := by
  induction bs generalizing f with
  | nil => rfl
  | cons b bs ih => exact (ih (f.addB b)).trans rfl
@[simp] theorem Form.addBs_ubw (f : Form) (bs : List Blk) : (f.addBs bs).ubw = f.ubw := by
  induction bs generalizing f with
  | nil => rfl
  | cons b bs ih => exact (ih (f.addB b)).trans rfl
@[simp] theorem Form.addBs_w0 (f : Form) (bs : List Blk) : (f.addBs bs).w0 = f.w0 := by
  induction bs generalizing f with
  | nil => rfl
  | cons b bs ih => exact (ih (f.addB b)).trans rfl

theorem Form.addBs_aligned {f : Form} {bs : List Blk} (hf : f.Aligned) (hb : ∀ b ∈ bs, b.Ok) :
    (f.addBs bs).Aligned := by
  induction bs generalizing f with
  | nil => exact hf
  | cons b bs ih =>
    refine ih (f := f.addB b) ?_ fun b' h => hb b' (by simp [h])
    have := hb b (by simp)
    exact ⟨hf.lbw, hf.ubw, hf.w0, by simp [Form.addB, hf.lbg, this.1],
      by simp [Form.addB, hf.ubg, this.2]⟩

theorem Form.addBs_rows {f : Form} {bs : List Blk} (hf : f.Aligned) (hb : ∀ b ∈ bs, b.Ok) :
    (f.addBs bs).rows = f.rows ++ bs.flatMap Blk.rows := by
  induction bs generalizing f with
  | nil => simp [Form.addBs]
  | cons b bs ih =>
    have h0 := hb b (by simp)
    have hal : (f.addB b).Aligned :=
      ⟨hf.lbw, hf.ubw, hf.w0, by simp [Form.addB, hf.lbg, h0.1], by simp [Form.addB, hf.ubg, h0.2]⟩
    have := ih hal fun b' h => hb b' (by simp [h])
    rw [show f.addBs (b :: bs) = (f.addB b).addBs bs from rfl, this]
    have hr : (f.addB b).rows = f.rows ++ b.rows := mkRows_append hf.lbg hf.ubg
    rw [hr]; simp

theorem Form.addBs_cost {f : Form} {bs : List Blk} (env : Env) :
    (f.addBs bs).cost env = f.cost env + (bs.map fun b => b.cost env).sum := by
  induction bs generalizing f with
  | nil => simp [Form.addBs]
  | cons b bs ih =>
    rw [show f.addBs (b :: bs) = (f.addB b).addBs bs from rfl, ih]
    simp [Form.addB, add_assoc]

theorem Form.addConstraint_blk {f : Form} {b : Blk} (hb : b.Ok) :
    ∃ r, ({ f with cost := fun env => f.cost env + b.cost env } : Form).addConstraint b.g
      (some (b.lb, b.ub)) = .ok (f.addB b, r) := by
  rw [Form.addConstraint_ok hb.1 hb.2]
  exact ⟨_, rfl⟩

/-- `ind_comp` of a list of processed elements, the first of which is added at row `ng`. -/
def compIdxs : Nat → List FE → List (List (List Nat))
  | _, [] => []
  | ng, fe :: rest =>
      fe.indComp.map (List.map (· + ng)) :: compIdxs (ng + fe.form.g.length) rest

theorem FE.blk_ok {fe : FE} (h : fe.form.Aligned) : fe.blk.Ok := ⟨h.lbg, h.ubg⟩

theorem feDone_facts (hx : FEDataOk m oc) (hf : FunsOk o m oc) (ha : NoAugSum o) (k e : Nat) :
    Executed o (feCmds o m oc k e) (feOf o m oc k e) (feDone o m oc k e) :=
  executed (feOf_aligned hx k e) (feCmds_ok (o := o) hf ha k e)

theorem feDone_aligned (hx : FEDataOk m oc) (hf : FunsOk o m oc) (ha : NoAugSum o) (k e : Nat) :
    (feDone o m oc k e).form.Aligned := (feDone_facts hx hf ha k e).aligned

theorem feDone_hExpr (hx : FEDataOk m oc) (hf : FunsOk o m oc) (ha : NoAugSum o) (k e : Nat) :
    (feDone o m oc k e).hExpr = .ok (hVal o k e) := by
  rw [← hExpr_ok (m := m) (oc := oc)]
  unfold FE.hExpr
  rw [(feDone_facts hx hf ha k e).h]

theorem feDone_lastX (hn : 0 < o.nS) (hx : FEDataOk m oc) (hf : FunsOk o m oc) (ha : NoAugSum o)
    (k e : Nat) : (feDone o m oc k e).read1 .x .last = .ok (endState o m.dims k e) := by
  have h0 : (feOf o m oc k e).read1 .x .last = .ok (endState o m.dims k e) := feInit_lastX hn
  have hE := feDone_facts hx hf ha k e
  unfold FE.read1 FE.get1 at *
  rw [hE.rows1, hE.ind, hE.w]
  simp only [bind_eq_ok] at h0
  obtain ⟨idx, ⟨j, hj, hidx⟩, hg⟩ := h0
  rw [hj]
  simp only [ok_bind]
  cases hidx
  rw [map_eq_ok] at hg
  obtain ⟨s, hs, hv⟩ := hg
  rw [gather_mono hs]
  simp [hv]

theorem processFEs_ok (hn : 0 < o.nS) (hp : PrimalOk o m) (hd : FEDataOk m oc)
    (hf : FunsOk o m oc) (hz : ZOk o m) (ha : NoAugSum o) {k : Nat} (hk : k < o.nStages)
    (es : List Nat) (hes : ∀ e ∈ es, e < nfe o k) (f : Form) :
    processFEs (heapOf o m oc) o m oc (argsOf o m.dims k) f (es.map (feOf o m oc k))
      = .ok (f.addBs (es.map fun e => (feDone o m oc k e).blk), es.map (feDone o m oc k),
          compIdxs f.g.length (es.map (feDone o m oc k))) := by
  induction es generalizing f with
  | nil => rfl
  | cons e es ih =>
    rw [List.map_cons, processFEs,
      (process_iff hn hp hf hz ⟨hk, hes e (by simp)⟩ _).2 ⟨ha, rfl⟩, ok_bind]
    have hb := FE.blk_ok (feDone_aligned hd hf ha k e)
    obtain ⟨r, hr⟩ := Form.addConstraint_blk (f := f) hb
    have hr' : ({ f with cost := fun env => f.cost env + (feDone o m oc k e).form.cost env }
        : Form).addConstraint (feDone o m oc k e).form.g
        (some ((feDone o m oc k e).form.lbg, (feDone o m oc k e).form.ubg))
        = .ok (f.addB (feDone o m oc k e).blk, r) := hr
    have hfd : (feCmds o m oc k e).foldl (execFE o) (feOf o m oc k e) = feDone o m oc k e := rfl
    simp only [hfd]
    rw [hr', ok_bind]
    simp only
    rw [ih fun e' h => hes e' (by simp [h])]
    have hl : (f.addB (feDone o m oc k e).blk).g.length
        = f.g.length + (feDone o m oc k e).form.g.length := by simp [Form.addB, FE.blk]
    simp only [ok_bind, List.map_cons, compIdxs]
    rw [hl]
    rfl

theorem processFEs_of_ok (hn : 0 < o.nS) (hp : PrimalOk o m)
    (hf : FunsOk o m oc) (hz : ZOk o m) {k : Nat} (hk : k < o.nStages)
    {e : Nat} {es : List Nat} (he : e < nfe o k) {f : Form} {r}
    (h : processFEs (heapOf o m oc) o m oc (argsOf o m.dims k) f
      ((e :: es).map (feOf o m oc k)) = .ok r) : NoAugSum o := by
  rw [List.map_cons, processFEs, bind_eq_ok] at h
  obtain ⟨fe', h1, _⟩ := h
  exact ((process_iff hn hp hf hz ⟨hk, he⟩ _).1 h1).1

/-- The clock state of the user evaluated at a state. -/
noncomputable def tAt (m : PreModel) (x : Vec) : Expr := match m.tFun with
  | some t => at' (t.app [x]) 0
  | none => const 0

noncomputable def equiBlk (o : PreOpts) (k : Nat) : Blk :=
  ⟨[fun env => (∑ e ∈ Finset.range (nfe o k), hVal o k e env) - o.terminalTime / o.nStages],
    [0], [0], const 0⟩

noncomputable def tfBlk (o : PreOpts) (m : PreModel) (k : Nat) : Blk :=
  ⟨[fun env => tAt m (endState o m.dims k (nfe o k - 1)) env
      - (o.terminalTime / o.nStages * ((k : ℝ) + 1) + tAt m (vars (blk m.dims.nX .x0)) env)],
    [((-o.timeFreezingTol : ℝ) : EReal)], [((o.timeFreezingTol : ℝ) : EReal)], const 0⟩

/-- All constraints and costs of control stage `k`. -/
noncomputable def stageBlks (o : PreOpts) (m : PreModel) (oc : PreOcp) (k : Nat) : List Blk :=
  (List.range (nfe o k)).map (fun e => (feDone o m oc k e).blk)
    ++ (if o.useFesd = true ∧ o.equidistant = true then [equiBlk o k] else [])
    ++ (if o.timeFreezing = true ∧ o.equidistant = true then [tfBlk o m k] else [])

/-- The finite elements of control stage `k` after processing. -/
noncomputable def doneFEs (o : PreOpts) (m : PreModel) (oc : PreOcp) (k : Nat) : List FE :=
  (List.range (nfe o k)).map (feDone o m oc k)

theorem Form.addConstraint_add {f : Form} {g : Vec} {lb ub : List EReal}
    (h1 : lb.length = g.length) (h2 : ub.length = g.length) :
    ∃ r, f.addConstraint g (some (lb, ub)) = .ok (f.addB ⟨g, lb, ub, const 0⟩, r) := by
  rw [Form.addConstraint_ok h1 h2]
  simp only [Form.addB, const, add_zero]
  exact ⟨_, rfl⟩

theorem sumH_ok (hd : FEDataOk m oc) (hf : FunsOk o m oc) (ha : NoAugSum o)
    (l : List (Nat × Nat)) :
    sumH (l.map fun q => feDone o m oc q.1 q.2)
      = .ok (fun env => (l.map fun q => hVal o q.1 q.2 env).sum) := by
  unfold sumH
  have : (l.map fun q => feDone o m oc q.1 q.2).mapM FE.hExpr
      = .ok (l.map fun q => hVal o q.1 q.2) := by
    induction l with
    | nil => rfl
    | cons q l ih =>
      rw [List.map_cons, List.mapM_cons, feDone_hExpr hd hf ha, ok_bind, ih]
      rfl
  rw [this]
  simp [Function.comp_def]

theorem sumH_stage (hd : FEDataOk m oc) (hf : FunsOk o m oc) (ha : NoAugSum o) (k : Nat) :
    sumH (doneFEs o m oc k)
      = .ok (fun env => ∑ e ∈ Finset.range (nfe o k), hVal o k e env) := by
  have := sumH_ok hd hf ha ((List.range (nfe o k)).map fun e => (k, e))
  simp only [List.map_map, Function.comp_def] at this
  unfold doneFEs
  rw [this]
  congr 1

theorem equidistantCon_ok (hd : FEDataOk m oc) (hf : FunsOk o m oc) (ha : NoAugSum o) (k : Nat)
    (f : Form) :
    equidistantCon o (doneFEs o m oc k) f = .ok (f.addBs
      (if o.useFesd = true ∧ o.equidistant = true then [equiBlk o k] else [])) := by
  unfold equidistantCon
  split
  · rename_i h
    rw [sumH_stage hd hf ha, ok_bind]
    rw [Form.addConstraint_none]
    obtain ⟨r, hr⟩ := Form.addConstraint_add (f := f)
      (g := [fun env => (∑ e ∈ Finset.range (nfe o k), hVal o k e env)
        - o.terminalTime / o.nStages]) (lb := [0]) (ub := [0]) rfl rfl
    simp only [List.length_singleton, List.replicate_one]
    rw [hr]
    rfl
  · rfl

theorem timeFreezing_ok (hn : 0 < o.nS) (hp : PrimalOk o m) (hd : FEDataOk m oc)
    (hf : FunsOk o m oc) (ha : NoAugSum o) {k : Nat} (hk : k < o.nStages) (f : Form) :
    timeFreezing (heapOf o m oc) o m k (doneFEs o m oc k) f = .ok (f.addBs
      (if o.timeFreezing = true ∧ o.equidistant = true then [tfBlk o m k] else [])) := by
  unfold timeFreezing
  split
  · rename_i h
    obtain ⟨t, ht⟩ := Option.isSome_iff_exists.1 (hf.tSome h.1)
    obtain ⟨h1, h2⟩ := hf.tFun t ht
    have hpos := (hp.nfe k hk).2
    have hlast : (doneFEs o m oc k).getLast? = some (feDone o m oc k (nfe o k - 1)) := by
      unfold doneFEs
      obtain ⟨n, hn⟩ := Nat.exists_eq_succ_of_ne_zero (by omega : nfe o k ≠ 0)
      rw [hn, List.range_succ]
      simp
    have h0 : (heapOf o m oc).fe0.read1 .x .last = .ok (vars (blk m.dims.nX .x0)) := fe0Init_lastX
    rw [ht, hlast]
    simp only
    rw [h0, ok_bind, CFun.call1_ok (by rw [h1]; simp) h2, ok_bind, feDone_lastX hn hd hf ha,
      ok_bind, CFun.call1_ok (by rw [h1]; simp) h2, ok_bind]
    obtain ⟨r, hr⟩ := Form.addConstraint_add (f := f) (g := (tfBlk o m k).g)
      (lb := (tfBlk o m k).lb) (ub := (tfBlk o m k).ub) rfl rfl
    have hg : (tfBlk o m k).g = [fun env => at' (t.app [endState o m.dims k (nfe o k - 1)]) 0 env
        - (o.terminalTime / o.nStages * ((k : ℝ) + 1)
          + at' (t.app [vars (blk m.dims.nX .x0)]) 0 env)] := by
      simp [tfBlk, tAt, ht]
    rw [hg] at hr
    simp only [tfBlk] at hr
    rw [hr, ok_bind]
    simp only [Form.addBs, List.foldl_cons, List.foldl_nil]
    congr 2
    simp [tfBlk, tAt, ht]
  · rfl

theorem stageArgs_ok (hp : PrimalOk o m) {f : Form}
    (hw : f.w = (primalOf o m oc).form.w) {k : Nat} (hk : k < o.nStages) :
    stageArgs o m.dims f (primalOf o m oc).indU (primalOf o m oc).indSot k
      = .ok (argsOf o m.dims k) := by
  have hw' : f.w = globSyms o m.dims ++ ((List.range k).flatMap (headSyms o m.dims)
      ++ (headSyms o m.dims k
        ++ (List.range' (k + 1) (o.nStages - (k + 1))).flatMap (headSyms o m.dims))) := by
    rw [hw]
    show globSyms o m.dims ++ (List.range o.nStages).flatMap (headSyms o m.dims) = _
    congr 1
    have : List.range o.nStages = List.range k ++ (k :: List.range' (k + 1) (o.nStages - (k + 1))) := by
      rw [← List.range'_succ, List.range_eq_range', List.range_eq_range']
      have h2 : List.range' k (o.nStages - (k + 1) + 1)
          = List.range' (0 + 1 * k) (o.nStages - k) := by
        rw [show 0 + 1 * k = k by omega, show o.nStages - (k + 1) + 1 = o.nStages - k by omega]
      rw [h2, List.range'_append]
      congr 1; omega
    rw [this, List.flatMap_append, List.flatMap_cons]
  have hlen : (globForm o m.dims oc).w.length + k * headLen o m.dims
      = (globSyms o m.dims ++ (List.range k).flatMap (headSyms o m.dims)).length := by
    rw [List.length_append, length_flatMap_head]; rfl
  have hu : gather f.w (List.range' ((globForm o m.dims oc).w.length + k * headLen o m.dims)
      m.dims.nU) = .ok (blk m.dims.nU (.u k)) := by
    rw [hw', hlen]
    have := gather_segment
      (globSyms o m.dims ++ (List.range k).flatMap (headSyms o m.dims))
      (blk m.dims.nU (.u k))
      ((if o.sot = .local then [Sym.sot k] else [])
        ++ (List.range' (k + 1) (o.nStages - (k + 1))).flatMap (headSyms o m.dims))
    simp only [length_blk] at this
    rw [← this]
    simp [headSyms]
  unfold stageArgs
  have hiu : listGet (primalOf o m oc).indU k
      = .ok (List.range' ((globForm o m.dims oc).w.length + k * headLen o m.dims) m.dims.nU) := by
    rw [listGet_eq_ok]; simp [primalOf, primalAcc, hk]
  rw [hiu, ok_bind, hu, ok_bind]
  cases hs : o.sot with
  | none =>
    simp only [ok_bind, argsOf]
    congr 2
    simp [sotVal, hs]
  | «global» => exact absurd hs hp.sot
  | «local» =>
    have his : listGet (primalOf o m oc).indSot k
        = .ok (List.range' ((globForm o m.dims oc).w.length + k * headLen o m.dims + m.dims.nU) 1) := by
      rw [listGet_eq_ok]; simp [primalOf, primalAcc, hk, hs]
    have hg : gather f.w (List.range' ((globForm o m.dims oc).w.length + k * headLen o m.dims
        + m.dims.nU) 1) = .ok [Sym.sot k] := by
      rw [hw']
      have := gather_segment
        (globSyms o m.dims ++ (List.range k).flatMap (headSyms o m.dims)
          ++ blk m.dims.nU (.u k))
        [Sym.sot k]
        ((List.range' (k + 1) (o.nStages - (k + 1))).flatMap (headSyms o m.dims))
      rw [List.length_append, ← hlen, length_blk] at this
      rw [show [Sym.sot k].length = 1 from rfl] at this
      rw [← this]
      simp [headSyms, hs]
    simp only
    rw [his, ok_bind, hg, ok_bind]
    simp only [argsOf, sotVal, hs, if_true]
    rfl

/-- Result of processing stages `0 … K-1`. -/
noncomputable def procAcc (o : PreOpts) (m : PreModel) (oc : PreOcp) (K : Nat) : ProcAcc where
  form := (primalOf o m oc).form.addBs ((List.range K).flatMap (stageBlks o m oc))
  stages := (List.range K).map (doneFEs o m oc)
  indComp := (List.range K).map fun k => compIdxs
    ((primalOf o m oc).form.addBs ((List.range k).flatMap (stageBlks o m oc))).g.length
    (doneFEs o m oc k)

theorem processStage_ok (hn : 0 < o.nS) (hp : PrimalOk o m) (hd : FEDataOk m oc)
    (hf : FunsOk o m oc) (hz : ZOk o m) (ha : NoAugSum o) {K : Nat} (hK : K < o.nStages) :
    processStage (heapOf o m oc) o m oc (primalOf o m oc).indU (primalOf o m oc).indSot
      (procAcc o m oc K) (stageFEs o m oc K, K) = .ok (procAcc o m oc (K + 1)) := by
  unfold processStage
  rw [stageArgs_ok hp (by simp [procAcc]) hK, ok_bind]
  have hs : stageFEs o m oc K = (List.range (nfe o K)).map (feOf o m oc K) := rfl
  simp only
  rw [hs, processFEs_ok hn hp hd hf hz ha hK _ (fun e he => List.mem_range.1 he), ok_bind]
  simp only
  have hdone : (List.range (nfe o K)).map (feDone o m oc K) = doneFEs o m oc K := rfl
  rw [hdone, equidistantCon_ok hd hf ha, ok_bind, timeFreezing_ok hn hp hd hf ha hK, ok_bind]
  simp only [procAcc, List.range_succ, List.flatMap_append, List.map_append, List.flatMap_singleton,
    Form.addBs_append, List.map_cons, List.map_nil, stageBlks]

theorem zipIdx_map_range {α : Type} (n : Nat) (f : Nat → α) :
    ((List.range n).map f).zipIdx = (List.range n).map fun k => (f k, k) := by
  apply List.ext_getElem
  · simp
  · intro i h1 h2
    simp

theorem processStages_ok (hn : 0 < o.nS) (hp : PrimalOk o m) (hd : FEDataOk m oc)
    (hf : FunsOk o m oc) (hz : ZOk o m) (ha : NoAugSum o) {K : Nat} (hK : K ≤ o.nStages) :
    ((List.range K).map fun k => (stageFEs o m oc k, k)).foldlM
      (processStage (heapOf o m oc) o m oc (primalOf o m oc).indU (primalOf o m oc).indSot)
      (procAcc o m oc 0) = .ok (procAcc o m oc K) := by
  induction K with
  | zero => rfl
  | succ K ih =>
    rw [List.range_succ, List.map_append, List.foldlM_append, ih (by omega), ok_bind]
    simp only [List.map_cons, List.map_nil, List.foldlM_cons, List.foldlM_nil]
    rw [processStage_ok hn hp hd hf hz ha (by omega)]
    rfl

/-- Processing the first element needs matching numbers of algebraic variables. -/
theorem process_zOk (hn : 0 < o.nS) (hf : FunsOk o m oc) {hp : Heap} {a : StageArgs} {k e : Nat}
    {fe' : FE} (h : (feOf o m oc k e).process hp o m oc a = .ok fe') : ZOk o m := by
  unfold FE.process forwardSim at h
  simp only [bind_eq_ok] at h
  obtain ⟨c1, ⟨X, _, l, _, cs, hcs, _⟩, _⟩ := h
  rw [mapM_eq_ok] at hcs
  obtain ⟨n, hn'⟩ := Nat.exists_eq_succ_of_ne_zero (by omega : o.nS ≠ 0)
  rw [hn', List.range_succ_eq_map] at hcs
  cases hcs with
  | cons h0 _ =>
    unfold stageCmds at h0
    simp only [bind_eq_ok] at h0
    obtain ⟨xj, _, z, hz, f, hfx, _⟩ := h0
    have hZ : (feOf o m oc k e).rkStageZ (.nat 0) = .ok (stageZ o m.dims k e 0) :=
      feInit_rkStageZ_nat hn
    rw [hZ] at hz
    cases hz
    rw [CFun.call_eq_ok, hf.fxIns] at hfx
    have := hfx.1
    simp only [List.map_cons, List.cons.injEq] at this
    rw [ZOk, this.2.1, length_stageZ]

theorem processStages_iff (hn : 0 < o.nS) (hp : PrimalOk o m) (hd : FEDataOk m oc)
    (hf : FunsOk o m oc) (acc : ProcAcc) :
    (primalOf o m oc).hp.stages.zipIdx.foldlM
      (processStage (heapOf o m oc) o m oc (primalOf o m oc).indU (primalOf o m oc).indSot)
      ⟨(primalOf o m oc).form, [], []⟩ = .ok acc ↔
      ZOk o m ∧ NoAugSum o ∧ acc = procAcc o m oc o.nStages := by
  have hst : (primalOf o m oc).hp.stages.zipIdx
      = (List.range o.nStages).map fun k => (stageFEs o m oc k, k) := zipIdx_map_range _ _
  have h0 : (⟨(primalOf o m oc).form, [], []⟩ : ProcAcc) = procAcc o m oc 0 := rfl
  rw [hst, h0]
  constructor
  · intro h
    have key : ZOk o m ∧ NoAugSum o := by
      obtain ⟨N, hN⟩ := Nat.exists_eq_succ_of_ne_zero hp.stages
      have hk : 0 < o.nStages := by omega
      have h1 := h
      rw [hN, List.range_succ_eq_map, List.map_cons, List.foldlM_cons, bind_eq_ok] at h1
      obtain ⟨acc1, h1, _⟩ := h1
      unfold processStage at h1
      rw [stageArgs_ok hp (by simp [procAcc]) hk, ok_bind, bind_eq_ok] at h1
      obtain ⟨r, h1, _⟩ := h1
      have hpos := (hp.nfe 0 hk).2
      obtain ⟨n, hnn⟩ := Nat.exists_eq_succ_of_ne_zero (by omega : nfe o 0 ≠ 0)
      have hs : stageFEs o m oc 0 = feOf o m oc 0 0 :: (List.range n).map
          (fun e => feOf o m oc 0 (e + 1)) := by
        show (List.range (nfe o 0)).map (feOf o m oc 0) = _
        rw [hnn, List.range_succ_eq_map]
        simp [Function.comp_def]
      simp only [hs] at h1
      rw [processFEs, bind_eq_ok] at h1
      obtain ⟨fe', h1, _⟩ := h1
      have hz := process_zOk hn hf h1
      exact ⟨hz, ((process_iff hn hp hf hz ⟨hk, hpos⟩ _).1 h1).1⟩
    rw [processStages_ok hn hp hd hf key.1 key.2 (le_refl _)] at h
    cases h
    exact ⟨key.1, key.2, rfl⟩
  · rintro ⟨hz, ha, rfl⟩
    exact processStages_ok hn hp hd hf hz ha (le_refl _)

end
end Nosnoc
