import Verif.Proofs.Dynamics
import Verif.Proofs.SolveRun
import Verif.Spec.Dynamics
import Verif.Witness.Flex
/-
C66: preprocessing of the options.
-/
namespace Nosnoc
section
variable {colloc : IrkScheme → Nat → List ℝ} {o : Opts} {po : PreOpts}

/-- The part of `preprocess` after the defaults have been filled in. -/
private noncomputable def preTail (colloc : IrkScheme → Nat → List ℝ) (o' : Opts) :
    Except PyErr PreOpts := do
  let pre : PreOpts ← match o'.irkRep with
    | .integral =>
        let t := generateButcherIntegral (colloc o'.scheme o'.nS)
        .ok { o' with aIrk := fun _ _ => 0, bIrk := fun _ => 0, BIrk := t.B, CIrk := t.C,
                      DIrk := t.D, timePts := t.tau, rbe := false }
    | _ => do
        let t ← generateButcher o'.nS o'.scheme
        .ok { o' with aIrk := matFun t.A, bIrk := vecFun t.b, BIrk := fun _ => 0,
                      CIrk := fun _ _ => 0, DIrk := fun _ => 0,
                      timePts := t.c.map (fun q : ℚ => (q : ℝ)), rbe := false }
  match pre.timePts.getLast? with
  | none => .error .indexError
  | some t =>
      .ok { pre with rbe := decide (|t - 1| < 1 / 10 ^ 9) }

private theorem preprocess_tail (colloc : IrkScheme → Nat → List ℝ) (o : Opts) {k : Nat}
    (h : o.maxIter = .ok k) : o.preprocess colloc
      = preTail colloc { o with maxIterHomotopy := k, nfeList := o.nfeAfter } := by
  unfold Opts.preprocess
  rw [h]
  rfl

/-- C66: preprocessing again changes nothing. -/
theorem C66_idempotent (h : o.preprocess colloc = .ok po) : po.toOpts.preprocess colloc = .ok po := by
  have hp := preprocess_opts h
  have hpos := maxIter_pos hp.iter
  have h1 : po.toOpts.maxIter = .ok po.maxIterHomotopy := by
    unfold Opts.maxIter
    rw [if_neg (by omega)]
  have h2 : po.toOpts.nfeAfter = po.nfeList := by
    have e1 : po.nfeList = o.nfeAfter := by rw [hp.toOpts]
    have e2 : po.nStages = o.nStages := by rw [hp.toOpts]
    have e3 : po.nFe = o.nFe := by rw [hp.toOpts]
    unfold Opts.nfeAfter
    split
    · rename_i h0
      rw [e2, e3]
      rw [e1] at h0 ⊢
      unfold Opts.nfeAfter at h0 ⊢
      split
      · rfl
      · rename_i h3
        rw [if_neg h3] at h0
        exact absurd h0 h3
    · rfl
  have h3 : ({ po.toOpts with maxIterHomotopy := po.maxIterHomotopy, nfeList := po.nfeList } : Opts)
      = { o with maxIterHomotopy := po.maxIterHomotopy, nfeList := o.nfeAfter } := by
    have e := hp.toOpts
    exact e
  rw [preprocess_tail colloc o hp.iter] at h
  rw [preprocess_tail colloc po.toOpts h1, h2, h3]
  exact h

/-- C66: what is filled in.  Every other option keeps its value. -/
theorem C66_defaults (h : o.preprocess colloc = .ok po) :
    po.toOpts = { o with maxIterHomotopy := po.maxIterHomotopy, nfeList := po.nfeList } ∧
    (o.nfeList = [] → po.nfeList = List.replicate o.nStages o.nFe) ∧
    (o.nfeList ≠ [] → po.nfeList = o.nfeList) ∧
    (o.maxIterHomotopy ≠ 0 → po.maxIterHomotopy = o.maxIterHomotopy) ∧
    0 < po.maxIterHomotopy := by
  have hp := preprocess_opts h
  have e : po.nfeList = o.nfeAfter := by rw [hp.toOpts]
  refine ⟨?_, ?_, ?_, ?_, maxIter_pos hp.iter⟩
  · rw [e]; exact hp.toOpts
  · intro hn
    rw [e]
    unfold Opts.nfeAfter
    rw [if_pos (by rw [hn]; rfl)]
  · intro hn
    rw [e]
    unfold Opts.nfeAfter
    rw [if_neg (by simpa using hn)]
  · intro hn
    have := hp.iter
    unfold Opts.maxIter at this
    rw [if_neg hn] at this
    exact (Except.ok.inj this).symm

/-- C66: the tableau that is set has `n_s` stages, and `right_boundary_point_explicit` holds exactly if
its last node is 1. For the differential representations that is exactly Radau IIA. -/
theorem C66_tableau (h : o.preprocess colloc = .ok po) (hr : o.irkRep ≠ .integral) :
    (∃ t, generateButcher o.nS o.scheme = .ok t ∧ t.c.length = o.nS ∧
      po.timePts = t.c.map (fun q : ℚ => (q : ℝ)) ∧
      (∀ i j, po.aIrk i j = ((t.a i j : ℚ) : ℝ)) ∧ ∀ i, po.bIrk i = ((t.w i : ℚ) : ℝ)) ∧
    (po.rbe = true ↔ po.timePts.getLast? = some 1) ∧
    (po.rbe = true ↔ o.scheme = .radauIIA) := by
  have hp := preprocess_opts h
  obtain ⟨t, ht, ha, hb, htp⟩ := hp.diff hr
  have hv := C20_valid ht
  refine ⟨⟨t, ht, hv.nodes, htp, fun i j => by rw [ha]; rfl, fun i => by rw [hb]; rfl⟩, ?_,
    hp.rbe_iff hr⟩
  rw [hp.rbe_iff hr, htp, List.getLast?_map]
  cases hs : o.scheme with
  | radauIIA =>
    rw [hs] at ht
    rw [(C20_radau_stiffly_accurate ht).2]
    simp
  | gaussLegendre =>
    rw [hs] at ht
    obtain ⟨c, h1, h2⟩ := C20_gauss_interior ht
    rw [h1]
    simp only [reduceCtorEq, Option.map_some, Option.some.injEq, false_iff]
    intro h3
    have : (c : ℝ) < ((99 / 100 : ℚ) : ℝ) := by exact_mod_cast h2
    rw [h3] at this
    norm_num at this

/-- C66: the same for the INTEGRAL representation, for points of the kind CasADi returns. -/
theorem C66_tableau_integral (h : o.preprocess colloc = .ok po) (hr : o.irkRep = .integral)
    (hc : CollocOk (colloc o.scheme o.nS) o.nS) (hn : 0 < o.nS) :
    po.timePts = 0 :: colloc o.scheme o.nS ∧ po.timePts.length = o.nS + 1 ∧
    (po.rbe = true ↔ (colloc o.scheme o.nS).getLast? = some 1) := by
  have hp := preprocess_opts h
  obtain ⟨-, -, -, htp⟩ := hp.integral hr
  obtain ⟨t, ht, hb⟩ := hp.rbe
  have hl : (colloc o.scheme o.nS).getLast? = some t := by
    rw [htp] at ht
    rw [← ht]
    have hne : colloc o.scheme o.nS ≠ [] := by
      intro h0
      have := hc.length
      rw [h0] at this
      simp at this
      omega
    obtain ⟨a, l, hal⟩ := List.exists_cons_of_ne_nil hne
    rw [hal, List.getLast?_cons_cons]
  refine ⟨htp, by rw [htp]; simp [hc.length], ?_⟩
  rw [hb, decide_eq_true_iff, hl]
  constructor
  · intro h1; rw [hc.last t hl h1]
  · intro h1
    rw [Option.some.injEq] at h1
    rw [h1]
    norm_num

/-- The default options can be preprocessed. -/
example (colloc : IrkScheme → Nat → List ℝ) : ∃ po, Opts.default.preprocess colloc = .ok po :=
  flex_preOpts (by norm_num [Opts.default]) (.inl rfl)

end
end Nosnoc
