import Verif.Spec.Path
import Verif.Spec.Lam00
import Verif.Props.Exactness
import Verif.Props.Discretised
import Verif.Props.Mpcc
import Verif.Witness.Slide
/-
C93: FESD loses no solution of a piecewise constant system.
-/
namespace Nosnoc
open Polynomial

section
variable {colloc : IrkScheme → Nat → List ℝ} {o : Opts} {um : UserModel} {uo : Option UserOcp}
  {po : PreOpts} {m : PreModel} {oc : PreOcp} {P : Problem}

/-- Stage states: fractions `ρ_j` of the segment. -/
def Path.pt (T : Path) (po : PreOpts) (ρ : Nat → ℝ) (k e j i : Nat) : ℝ :=
  T.start po k e i + ρ j * (T.X k e i - T.start po k e i)

def Path.ptL (T : Path) (po : PreOpts) (um : UserModel) (ρ : Nat → ℝ) (k e j : Nat) : List ℝ :=
  (List.range um.nX).map (T.pt po ρ k e j)

/-- The point of the NLP that belongs to a path. -/
noncomputable def Path.env (T : Path) (po : PreOpts) (um : UserModel) (ρ : Nat → ℝ) : Env
  | .x0 i => T.x0 i
  | .u k i => T.u k i
  | .vGlob i => T.v i
  | .pStage k i => T.p k i
  | .sot k => T.speed k
  | .h k e => T.H k e
  | .st1 .v k e _ i => T.speed k * T.slope um k e i
  | .st1 .x k e j i => T.pt po ρ k e j i
  | .xEnd k e i => T.X k e i
  | .st2 .theta k e _ s i => T.theta k e s i
  | .st2 .lam k e j s i => um.lam00St (T.ptL po um ρ k e j) [] (T.pL um k) s i
  | .st2 .mu k e j s _ =>
      -⨅ i : Fin (um.Fmat s).nCols, um.gVal s i (T.ptL po um ρ k e j) [] (T.pL um k)
  | .lam00 .lam s i => um.lam00St ((List.range um.nX).map T.x0) [] (T.pL um 0) s i
  | _ => 0

theorem lam00St_pos (um : UserModel) (x p : List ℝ) {s i : Nat} (hi : i < (um.Fmat s).nCols) :
    0 ≤ um.lam00St x [] p s i := by
  unfold UserModel.lam00St
  have := ciInf_le (Set.finite_range fun j : Fin (um.Fmat s).nCols => um.gVal s j x [] p).bddBelow
    ⟨i, hi⟩
  simp only at this
  linarith

/-- In the closure of a region of a full sign matrix, its indicator is minimal. -/
theorem lam00St_closed {um : UserModel} {x p : List ℝ} {s i : Nat} (hg : um.gStewartTruthy = false)
    (hD : (um.Smat s).IsDense) (hrows : (um.Smat s).rows = (um.Fmat s).nCols)
    (hi : i < (um.Fmat s).nCols) (hc : um.InClosedRegion s i x p) : um.lam00St x [] p s i = 0 := by
  apply le_antisymm _ (lam00St_pos um x p hi)
  unfold UserModel.lam00St
  haveI : Nonempty (Fin (um.Fmat s).nCols) := ⟨⟨i, hi⟩⟩
  have : um.gVal s i x [] p ≤ ⨅ j : Fin (um.Fmat s).nCols, um.gVal s j x [] p := by
    refine le_ciInf fun j => ?_
    unfold UserModel.gVal
    rw [hg]
    simp only [Bool.false_eq_true, if_false]
    refine neg_le_neg (Finset.sum_le_sum fun n hn => ?_)
    have hn := Finset.mem_range.1 hn
    have h1 := hc n hn
    rcases hD.1 i (by omega) n hn with a | a <;>
      rcases hD.1 j (by have := j.2; omega) n hn with b | b <;> rw [a] at h1 ⊢ <;> rw [b] <;> linarith
  linarith

/-- What the stage fractions must satisfy. -/
structure Fractions (colloc : IrkScheme → Nat → List ℝ) (o : Opts) (po : PreOpts) (b : Nat → ℝ)
    (ρ : Nat → ℝ) : Prop where
  box : ∀ j < o.nS, 0 ≤ ρ j ∧ ρ j ≤ 1
  last : ρ (o.nS - 1) = 1
  diff : o.irkRep ≠ .integral → ∀ j < o.nS, ∑ r ∈ Finset.range o.nS, po.aIrk j r
    = ρ j * ∑ r ∈ Finset.range o.nS, b r
  weights : o.irkRep ≠ .integral → ∀ j < o.nS, po.bIrk j = b j
  integral : o.irkRep = .integral → ∀ j < o.nS, ρ j = (colloc o.scheme o.nS).getD j 0

theorem radau_fractions {n : Nat} {t : Tableau} (h : generateButcher n .radauIIA = .ok t) :
    ∀ j < n, 0 ≤ ∑ r ∈ Finset.range n, t.a j r ∧
      ∑ r ∈ Finset.range n, t.a j r ≤ ∑ r ∈ Finset.range n, t.w r := by
  unfold generateButcher at h
  simp only at h
  split at h <;> cases h <;> decide +kernel

theorem fractions_exist (h : SetupEx colloc o um uo po m oc P) (hr : po.rbe = true) {b : Nat → ℝ}
    (hb : SchemeWeights colloc o b)
    (hc : o.irkRep = .integral → CollocOk (colloc o.scheme o.nS) o.nS ∧
      ∀ t ∈ colloc o.scheme o.nS, 0 ≤ t ∧ t ≤ 1) : ∃ ρ, Fractions colloc o po b ρ := by
  have ho := h.toSetup.built.opts
  have hpos := h.nS
  by_cases hi : o.irkRep = .integral
  · obtain ⟨hok, hbox⟩ := hc hi
    obtain ⟨_, _, _, htp⟩ := ho.integral hi
    obtain ⟨c, hcl, hb'⟩ := ho.rbe
    have hlen := hok.length
    rw [htp] at hcl
    have hne : colloc o.scheme o.nS ≠ [] := by intro h0; rw [h0] at hlen; simp at hlen; omega
    have hcl' : (colloc o.scheme o.nS).getLast? = some c := by
      rw [List.getLast?_cons] at hcl
      obtain ⟨c', hc'⟩ := List.getLast?_isSome.2 hne |> Option.isSome_iff_exists.1
      rw [hc'] at hcl ⊢
      simpa using hcl
    have h1 : c = 1 := hok.last c hcl' (by rw [hb', decide_eq_true_iff] at hr; exact hr)
    refine ⟨fun j => (colloc o.scheme o.nS).getD j 0, ⟨fun j hj => ?_, ?_, fun hn => absurd hi hn,
      fun hn => absurd hi hn, fun _ j _ => rfl⟩⟩
    · have : (colloc o.scheme o.nS).getD j 0 ∈ colloc o.scheme o.nS := by
        rw [List.getD_eq_getElem?_getD, List.getElem?_eq_getElem (by omega), Option.getD_some]
        exact List.getElem_mem _
      exact hbox _ this
    · rw [List.getLast?_eq_getElem?, hlen] at hcl'
      rw [List.getD_eq_getElem?_getD, hcl', h1]
      rfl
  · obtain ⟨t, ht, hA, hbb, _⟩ := ho.diff hi
    rw [(ho.rbe_iff hi).1 hr] at ht
    have hW := hb.sum_pos h
    have ht' : generateButcher o.nS o.scheme = .ok t := by rw [(ho.rbe_iff hi).1 hr]; exact ht
    have ew : ∑ r ∈ Finset.range o.nS, b r = ((∑ r ∈ Finset.range o.nS, t.w r : ℚ) : ℝ) := by
      rw [Rat.cast_sum]
      exact Finset.sum_congr rfl fun j hj => hb.table hi t ht' j (Finset.mem_range.1 hj)
    have ea : ∀ j, ∑ r ∈ Finset.range o.nS, po.aIrk j r
        = ((∑ r ∈ Finset.range o.nS, t.a j r : ℚ) : ℝ) := by
      intro j
      rw [Rat.cast_sum]
      exact Finset.sum_congr rfl fun r _ => by rw [hA, matFun_eq]
    refine ⟨fun j => (∑ r ∈ Finset.range o.nS, po.aIrk j r) / ∑ r ∈ Finset.range o.nS, b r,
      ⟨fun j hj => ?_, ?_, fun _ j _ => ?_, fun _ j hj => ?_, fun hn => absurd hn hi⟩⟩
    · obtain ⟨f1, f2⟩ := radau_fractions ht j hj
      refine ⟨div_nonneg ?_ hW.le, (div_le_one hW).2 ?_⟩
      · rw [ea]; exact_mod_cast f1
      · rw [ea, ew]; exact_mod_cast f2
    · rw [div_eq_one_iff_eq hW.ne', ea, ew]
      congr 1
      exact Finset.sum_congr rfl fun r _ => by rw [radau_last ht]
    · rw [div_mul_cancel₀ _ hW.ne']
    · rw [hbb, vecFun_eq, hb.table hi t ht' j hj]

/-! ### Values at the point -/

section
variable {T : Path} {b ρ : Nat → ℝ}

theorem Path.env_end (hρ : ρ (po.nS - 1) = 1) (k e i : Nat) :
    T.env po um ρ (endX po k e i) = T.X k e i := by
  unfold endX
  split
  · rfl
  · change T.pt po ρ k e (po.nS - 1) i = _
    unfold Path.pt
    rw [hρ]; ring

theorem Path.env_start (hρ : ρ (po.nS - 1) = 1) (k e i : Nat) :
    T.env po um ρ (startX po k e i) = T.start po k e i := by
  unfold startX Path.start
  cases prevFe po k e with
  | none => rfl
  | some q => exact Path.env_end hρ _ _ _

theorem Path.ptL_last (hρ : ρ (po.nS - 1) = 1) (k e : Nat) :
    T.ptL po um ρ k e (po.nS - 1) = T.endL um k e := by
  unfold Path.ptL Path.endL Path.pt
  rw [hρ]
  simp

theorem Path.startL_prev {k e k' e' : Nat} (hn : prevFe po k e = some (k', e')) :
    T.startL po um k e = T.endL um k' e' := by
  unfold Path.startL Path.endL Path.start
  rw [hn]

theorem Path.env_h (hf : po.useFesd = true) (k e : Nat) : hVal po k e (T.env po um ρ) = T.H k e := by
  unfold hVal; rw [hf]; rfl

theorem Path.env_sot {uo' : UserOcp} {W : ℝ} (hT : T.Solves um uo' po W) {k : Nat}
    (hk : k < po.nStages) : sotVal po k (T.env po um ρ) = T.speed k := by
  unfold sotVal
  split
  · rfl
  · rw [hT.noSpeed ‹_› k hk]; rfl

theorem Path.env_u (h : Setup colloc o um uo po m oc P) (k : Nat) :
    uVal m.dims k (T.env po um ρ) = T.uL um k := by
  unfold uVal Path.uL; rw [h.dims.2.1]; rfl
theorem Path.env_p (h : Setup colloc o um uo po m oc P) (k : Nat) :
    pVal m.dims k (T.env po um ρ) = T.pL um k := by
  unfold pVal Path.pL; rw [h.dims.2.2.2.2.1, h.dims.2.2.2.2.2.1]; rfl
theorem Path.env_v (h : Setup colloc o um uo po m oc P) :
    vVal m.dims (T.env po um ρ) = T.vL um := by
  unfold vVal Path.vL; rw [h.dims.2.2.2.1]; rfl

theorem list_ext_getD {l l' : List ℝ} (hl : l.length = l'.length)
    (h : ∀ i < l.length, l.getD i 0 = l'.getD i 0) : l = l' := by
  refine List.ext_getElem hl fun i h1 h2 => ?_
  have := h i h1
  simpa [List.getD_eq_getElem?_getD, h1, h2] using this

theorem Path.env_xEnd (h : Setup colloc o um uo po m oc P) (hρ : ρ (po.nS - 1) = 1) (k e : Nat) :
    xEndVal po m.dims k e (T.env po um ρ) = T.endL um k e := by
  unfold xEndVal Path.endL
  rw [h.dims.1]
  exact List.map_congr_left fun i _ => Path.env_end hρ k e i

/-- The increment on an element. -/
theorem Path.inc (h : SetupEx colloc o um uo po m oc P) {uo' : UserOcp}
    (hf : Fractions colloc o po b ρ) (hT : T.Solves um uo' po (∑ j ∈ Finset.range o.nS, b j))
    (hi : o.irkRep ≠ .integral) {k e : Nat} (hk : HasFE po k e) {j : Nat} (hj : j < o.nS) {i : Nat}
    (hx : i < um.nX) :
    ∑ r ∈ Finset.range po.nS, T.H k e * po.aIrk j r * (T.speed k * T.slope um k e i)
      = ρ j * (T.X k e i - T.start po k e i) := by
  rw [hT.step k e hk i hx, ← Finset.sum_mul, ← Finset.mul_sum, h.e_nS, hf.diff hi j hj]
  ring

theorem Path.env_x (h : SetupEx colloc o um uo po m oc P) {uo' : UserOcp}
    (hf : Fractions colloc o po b ρ) (hT : T.Solves um uo' po (∑ j ∈ Finset.range o.nS, b j))
    (hF : po.useFesd = true) {k e : Nat} (hk : HasFE po k e) {j : Nat} (hj : j < o.nS) :
    xVal po m.dims k e j (T.env po um ρ) = T.ptL po um ρ k e j := by
  have dX := h.toSetup.dims.1
  have hρ : ρ (po.nS - 1) = 1 := by rw [h.e_nS]; exact hf.last
  refine list_ext_getD (by rw [length_xVal]; simp [Path.ptL, dX]) fun i hi => ?_
  rw [length_xVal] at hi
  rw [xVal_get hi]
  have : (T.ptL po um ρ k e j).getD i 0 = T.pt po ρ k e j i := by
    have : i < um.nX := by omega
    simp [Path.ptL, List.getD_eq_getElem?_getD, this]
  rw [this]
  split
  · rename_i hd
    rw [Path.env_start hρ, Path.env_h hF]
    unfold Path.pt
    congr 1
    exact Path.inc h hf hT (by rw [← h.e_irkRep, hd]; decide) hk hj (by omega)
  · rfl

/-- Points of a segment between two points of the closure of a region lie in it. -/
theorem Path.closed_pt (hpc : um.PiecewiseConstant) {uo' : UserOcp} {W : ℝ}
    (hT : T.Solves um uo' po W) {k e : Nat} (hk : HasFE po k e) {j : Nat}
    (hr : 0 ≤ ρ j ∧ ρ j ≤ 1) {s i : Nat} (hs : s < um.nSys) (hi : i < (um.Fmat s).nCols)
    (hθ : T.theta k e s i ≠ 0) : um.InClosedRegion s i (T.ptL po um ρ k e j) (T.pL um k) := by
  obtain ⟨c1, c2⟩ := hT.closed k e hk s hs i hi hθ
  intro n hn
  obtain ⟨a, b', hab⟩ := hpc.c s hs n hn (T.pL um k)
  have k1 := c1 n hn
  have k2 := c2 n hn
  rw [hab] at k1 k2 ⊢
  have g : ∀ (f : Nat → ℝ), ∀ i ∈ Finset.range um.nX, a i * ((List.range um.nX).map f).getD i 0
      = a i * f i := by
    intro f i hi
    have hi := Finset.mem_range.1 hi
    simp [List.getD_eq_getElem?_getD, hi]
  unfold Path.startL at k1
  unfold Path.endL at k2
  unfold Path.ptL
  rw [Finset.sum_congr rfl (g _)] at k1 k2 ⊢
  have e1 : ∑ i ∈ Finset.range um.nX, a i * T.pt po ρ k e j i
      = (1 - ρ j) * ∑ i ∈ Finset.range um.nX, a i * T.start po k e i
        + ρ j * ∑ i ∈ Finset.range um.nX, a i * T.X k e i := by
    rw [Finset.mul_sum, Finset.mul_sum, ← Finset.sum_add_distrib]
    refine Finset.sum_congr rfl fun i _ => ?_
    unfold Path.pt
    ring
  rw [e1]
  calc (0 : ℝ) ≤ _ := add_nonneg (mul_nonneg (sub_nonneg.2 hr.2) k1) (mul_nonneg hr.1 k2)
    _ = _ := by ring

/-- Between bounds. -/
theorem ereal_between {l u : EReal} {x y r : ℝ} (hr : 0 ≤ r ∧ r ≤ 1) (hx : l ≤ (x : EReal) ∧ (x : EReal) ≤ u)
    (hy : l ≤ (y : EReal) ∧ (y : EReal) ≤ u) :
    l ≤ ((x + r * (y - x) : ℝ) : EReal) ∧ ((x + r * (y - x) : ℝ) : EReal) ≤ u := by
  rcases le_total x y with hxy | hxy
  · refine ⟨hx.1.trans (EReal.coe_le_coe_iff.2 ?_), (EReal.coe_le_coe_iff.2 ?_).trans hy.2⟩ <;>
      nlinarith
  · refine ⟨hy.1.trans (EReal.coe_le_coe_iff.2 ?_), (EReal.coe_le_coe_iff.2 ?_).trans hx.2⟩ <;>
      nlinarith

end

section
variable {T : Path} {b ρ : Nat → ℝ}

theorem Path.x_box {uo' : UserOcp} {W : ℝ} (hT : T.Solves um uo' po W)
    (hn : ∀ k < po.nStages, 0 < nfe po k) {k e : Nat} (hk : HasFE po k e) {j : Nat}
    (hr : 0 ≤ ρ j ∧ ρ j ≤ 1) {i : Nat} (hi : i < um.nX) :
    getOr uo'.lbx ⊥ i ≤ ((T.pt po ρ k e j i : ℝ) : EReal) ∧
      ((T.pt po ρ k e j i : ℝ) : EReal) ≤ getOr uo'.ubx ⊤ i := by
  refine ereal_between hr ?_ (hT.xBox k e hk i hi)
  unfold Path.start prevFe
  by_cases he : 0 < e
  · simp only [he, if_true]
    exact hT.xBox k (e - 1) ⟨hk.1, by have := hk.2; omega⟩ i hi
  · by_cases hk0 : 0 < k
    · simp only [he, hk0, if_true, if_false]
      have := hk.1
      exact hT.xBox (k - 1) _ ⟨by omega, by have := hn (k - 1) (by omega); omega⟩ i hi
    · simp only [he, hk0, if_false]
      exact hT.x0Box i hi

theorem Path.lam_zero (h : SetupEx colloc o um uo po m oc P) (hp : o.pss = .stewart)
    (hS : SignsOk o um) {x p : List ℝ} {s i : Nat} (hs : s < um.nSys) (hi : i < (um.Fmat s).nCols)
    (hc : um.InClosedRegion s i x p) : um.lam00St x [] p s i = 0 := by
  obtain ⟨hg, hD⟩ := (hS s hs).2.1 hp
  exact lam00St_closed hg hD (h.toSetup.shapes_stewart (h.e_pss.trans hp) hg hs).1 hi hc

/-- The multiplier at the beginning of an element is that of the state there, with the parameters of the
control stage it comes from. -/
theorem Path.lamStart_eq (hr : po.rbe = true) (hρ : ρ (po.nS - 1) = 1) {k e : Nat} {s i : Nat} :
    lamStart po k e (T.env po um ρ) (.region s i)
      = um.lam00St (T.startL po um k e) [] (T.pL um (prevStage po k e)) s i := by
  unfold lamStart
  cases hn : prevFe po k e with
  | none =>
    have : T.startL po um k e = (List.range um.nX).map T.x0 := by
      unfold Path.startL Path.start; rw [hn]
    rw [this]
    unfold prevStage
    rw [hn]
    rfl
  | some q =>
    obtain ⟨k', e'⟩ := q
    simp only
    rw [lastLam_stage (.inl hr), Path.startL_prev hn]
    change um.lam00St (T.ptL po um ρ k' e' (po.nS - 1)) [] (T.pL um k') s i = _
    rw [Path.ptL_last hρ]
    unfold prevStage
    rw [hn]

theorem nLamPts_rbe (hr : po.rbe = true) (k e : Nat) : nLamPts po k e = po.nS := by
  unfold nLamPts extraPt; simp [hr]

theorem Path.feasible (h : SetupEx colloc o um uo po m oc P) (hp : o.pss = .stewart)
    (hf : o.useFesd = true) (hr : po.rbe = true) (hS : SignsOk o um) (hpc : um.PiecewiseConstant)
    (hpl : PlainProblem o um (uo.getD UserOcp.trivial))
    (hc : o.irkRep = .integral → CollocOk (colloc o.scheme o.nS) o.nS)
    (hb : SchemeWeights colloc o b) (hρ : Fractions colloc o po b ρ)
    (hT : T.Solves um (uo.getD UserOcp.trivial) po (∑ j ∈ Finset.range o.nS, b j)) :
    FeasibleSpec po m.dims um (uo.getD UserOcp.trivial) (T.env po um ρ) := by
  have hp' := h.e_pss.trans hp
  have hf' := h.e_useFesd.trans hf
  have eS := h.e_nS
  have eR := h.e_irkRep
  have eM := h.e_mpcc
  have hpos := h.nS
  have ho := h.toSetup.built.opts
  obtain ⟨dX, dU, dZ, dV, -, -, dS, dF, -⟩ := h.toSetup.dims
  have dF := dF hp'
  have hl : ρ (po.nS - 1) = 1 := by rw [eS]; exact hρ.last
  have hz : m.dims.nZ = 0 := by rw [dZ, hpc.noZ]
  have hnfe := h.toSetup.nfe_pos
  have xv : ∀ {k e j}, HasFE po k e → j < po.nS →
      xVal po m.dims k e j (T.env po um ρ) = T.ptL po um ρ k e j := fun hk hj =>
    Path.env_x h hρ hT hf' hk (by omega)
  -- right-hand side
  have rhs : ∀ {k e j}, HasFE po k e → j < po.nS → ∀ i,
      um.stageRhs po m.dims k e j i (T.env po um ρ) = T.slope um k e i := by
    intro k e j hk hj i
    unfold UserModel.stageRhs
    rw [hp', xv hk hj, zVal_nil hz, Path.env_u h.toSetup, Path.env_p h.toSetup, Path.env_v h.toSetup]
    unfold UserModel.rhsStewart Path.slope
    refine Finset.sum_congr rfl fun s hs => Finset.sum_congr rfl fun i' _ => ?_
    rw [hpc.F s (Finset.mem_range.1 hs) i i' (T.ptL po um ρ k e j) []]
    rfl
  -- complementarity of the pairs
  have nnT : ∀ {k e j}, HasFE po k e → ∀ q, IsPair po m.dims q →
      0 ≤ thetaAt k e j (T.env po um ρ) q := by
    intro k e j hk q hq
    cases q with
    | region s i => exact ((hT.convex k e hk s (by rw [← dS]; exact hq.2.1)).1 i (by
        rw [← dF s (by rw [← dS]; exact hq.2.1)]; exact hq.2.2))
    | neg s i => exact absurd (hp'.symm.trans hq.1) (by decide)
    | pos s i => exact absurd (hp'.symm.trans hq.1) (by decide)
  have nnL : ∀ {k e j}, ∀ q, IsPair po m.dims q → 0 ≤ lamAt k e j (T.env po um ρ) q := by
    intro k e j q hq
    cases q with
    | region s i => exact lam00St_pos um _ _ (by
        rw [← dF s (by rw [← dS]; exact hq.2.1)]; exact hq.2.2)
    | neg s i => exact absurd (hp'.symm.trans hq.1) (by decide)
    | pos s i => exact absurd (hp'.symm.trans hq.1) (by decide)
  have nnS : ∀ {k e}, HasFE po k e → ∀ q, IsPair po m.dims q →
      0 ≤ lamStart po k e (T.env po um ρ) q := by
    intro k e hk q hq
    cases q with
    | region s i =>
      rw [Path.lamStart_eq hr hl]
      exact lam00St_pos um _ _ (by rw [← dF s (by rw [← dS]; exact hq.2.1)]; exact hq.2.2)
    | neg s i => exact absurd (hp'.symm.trans hq.1) (by decide)
    | pos s i => exact absurd (hp'.symm.trans hq.1) (by decide)
  have zL : ∀ {k e j j'}, HasFE po k e → j' < po.nS → ∀ q, IsPair po m.dims q →
      thetaAt k e j (T.env po um ρ) q * lamAt k e j' (T.env po um ρ) q = 0 := by
    intro k e j j' hk hj' q hq
    cases q with
    | region s i =>
      have hs : s < um.nSys := by rw [← dS]; exact hq.2.1
      have hi : i < (um.Fmat s).nCols := by rw [← dF s hs]; exact hq.2.2
      by_cases h0 : T.theta k e s i = 0
      · exact mul_eq_zero_of_left h0 _
      · exact mul_eq_zero_of_right _ (Path.lam_zero h hp hS hs hi
          (Path.closed_pt hpc hT hk (hρ.box j' (by omega)) hs hi h0))
    | neg s i => exact absurd (hp'.symm.trans hq.1) (by decide)
    | pos s i => exact absurd (hp'.symm.trans hq.1) (by decide)
  have zS : ∀ {k e j}, HasFE po k e → ∀ q, IsPair po m.dims q →
      thetaAt k e j (T.env po um ρ) q * lamStart po k e (T.env po um ρ) q = 0 := by
    intro k e j hk q hq
    cases q with
    | region s i =>
      have hs : s < um.nSys := by rw [← dS]; exact hq.2.1
      have hi : i < (um.Fmat s).nCols := by rw [← dF s hs]; exact hq.2.2
      by_cases h0 : T.theta k e s i = 0
      · exact mul_eq_zero_of_left h0 _
      · rw [Path.lamStart_eq hr hl]
        exact mul_eq_zero_of_right _ (Path.lam_zero h hp hS hs hi (hT.closedOld k e hk s hs i hi h0))
    | neg s i => exact absurd (hp'.symm.trans hq.1) (by decide)
    | pos s i => exact absurd (hp'.symm.trans hq.1) (by decide)
  have comp : ∀ {xs : List ℝ} {y : ℝ}, (∀ x ∈ xs, 0 ≤ x) → 0 ≤ y → (∀ x ∈ xs, x * y = 0) →
      Compl po (T.env po um ρ) xs y := fun hx hy h0 =>
    C31_complete (o := po.toOpts) (by rw [eM]; exact hpl.mode.2) hx hy h0
      fun hbm => absurd (eM.symm.trans hbm) hpl.mode.1
  have dual : ∀ {x : ℝ}, 0 ≤ x → dualLb po.mpcc ≤ ((x : ℝ) : EReal) := by
    intro x hx
    unfold dualLb
    split
    · exact EReal.coe_nonneg.2 hx
    · exact bot_le
  refine { bounds := ?_, alg := ?_, rk := ?_, lift := ?_, cont := ?_,
           boundary := fun h0 => absurd (hr.symm.trans h0) (by decide), pathEnd := ?_, pathStage := ?_,
           stageComp := ?_, ctrlComp := ?_, globComp := ?_,
           compStd := fun h0 => absurd (hf'.symm.trans h0) (by decide), compAll := ?_, compSum := ?_,
           stepDirect := fun _ h0 => absurd (h.e_stepEq.symm.trans h0) hpl.stepEq.1,
           stepDirectComp := fun _ h0 => absurd (h.e_stepEq.symm.trans h0) hpl.stepEq.2.1,
           stepHComp := fun _ h0 => absurd (h.e_stepEq.symm.trans h0) hpl.stepEq.2.2,
           equi := ?_, time := ?_, freeze := ?_, term := ?_ }
  · intro y hy
    cases y with
    | sElastic =>
      obtain ⟨h1, h2⟩ := hpl.slack (by rw [← eM]; exact hy)
      rw [← h.e_sElasticMin] at h1
      rw [← h.e_sElasticMax] at h2
      exact ⟨EReal.coe_le_coe_iff.2 h1, EReal.coe_le_coe_iff.2 h2⟩
    | vGlob i => exact hT.vBox i (by rw [← dV]; exact hy)
    | u k i => exact hT.uBox k hy.1 i (by rw [← dU]; exact hy.2)
    | sot k =>
      obtain ⟨h1, h2⟩ := hT.speedBox hy.1 k hy.2
      exact ⟨EReal.coe_le_coe_iff.2 h1, EReal.coe_le_coe_iff.2 h2⟩
    | h k e =>
      obtain ⟨h1, h2⟩ := hT.box k e hy.2
      exact ⟨EReal.coe_le_coe_iff.2 h1, EReal.coe_le_coe_iff.2 h2⟩
    | st1 f k e j i =>
      cases f with
      | v => exact ⟨bot_le, le_top⟩
      | x => exact Path.x_box hT hnfe hy.2.1 (hρ.box j (by rw [← eS]; exact hy.2.2.1)) (by
          rw [← dX]; exact hy.2.2.2)
      | z => exact absurd hy.2.2 (by rw [hz]; omega)
    | xEnd k e i => exact hT.xBox k e hy.2.1 i (by rw [← dX]; exact hy.2.2)
    | st2 f k e j s i =>
      cases f with
      | theta =>
        exact ⟨dual (nnT (j := j) hy.2.1 (.region s i) ⟨hp', hy.2.2.2⟩), le_top⟩
      | lam => exact ⟨dual (nnL (k := k) (e := e) (j := j) (.region s i) ⟨hp', hy.2.2.2⟩), le_top⟩
      | mu => exact ⟨bot_le, le_top⟩
      | alpha => exact absurd (hp'.symm.trans hy.1) (by decide)
      | lamN => exact absurd (hp'.symm.trans hy.1) (by decide)
      | lamP => exact absurd (hp'.symm.trans hy.1) (by decide)
    | _ => exact hy.elim
  · intro k e hk j hj
    refine ⟨?_, fun _ s hs => (hT.convex k e hk s hs).2, fun i hi => ?_⟩
    · unfold UserModel.Switching
      rw [hp', xv hk hj, zVal_nil hz, Path.env_p h.toSetup]
      intro s hs i hi
      change _ = um.lam00St _ _ _ _ _ - -_
      unfold UserModel.lam00St
      ring
    · rw [hpl.noGz] at hi; omega
  · intro k e hk j hj i hi
    unfold RkEq
    rw [rhs hk hj, Path.env_sot hT hk.1]
    split
    · rename_i hint
      have hint' := eR.symm.trans hint
      obtain ⟨_, hC, _, _⟩ := ho.integral hint'
      have hok := hc hint'
      have hlen := hok.length
      have hW : ∑ j ∈ Finset.range o.nS, b j = 1 := by
        have := hb.quad hint' Polynomial.X (by rw [natDegree_X]; omega)
        simpa using this.symm
      let q : ℝ[X] := C (T.start po k e i) + C (T.X k e i - T.start po k e i) * Polynomial.X
      have hq : q.natDegree ≤ (colloc o.scheme o.nS).length := by
        refine (natDegree_add_le _ _).trans (max_le (by simp) ?_)
        refine (natDegree_C_mul_le _ _).trans ?_
        rw [natDegree_X]; omega
      have hd := C15_derivative hok.nodup hq (j + 1)
      have e1 : (derivative q).eval (node (colloc o.scheme o.nS) (j + 1))
          = T.H k e * (T.speed k * T.slope um k e i) := by
        simp only [q, derivative_add, derivative_C, derivative_C_mul, derivative_X, zero_add, mul_one,
          eval_C]
        rw [hT.step k e hk i (by omega), hW]; ring
      rw [e1] at hd
      rw [Path.env_h hf', ← hd, Finset.sum_range_succ', hlen, hC, eS, add_comm]
      congr 1
      · rw [Path.env_start hl, node_zero]
        simp [q]
      · refine Finset.sum_congr rfl fun r hr => ?_
        congr 1
        rw [node_succ]
        change _ = T.pt po ρ k e r i
        unfold Path.pt
        rw [hρ.integral hint' r (Finset.mem_range.1 hr)]
        simp [q]; ring
    · rfl
  · intro hlx k e hk j hj i hi
    unfold LiftEq
    rw [Path.env_start hl, Path.env_h hf']
    change T.pt po ρ k e j i = _
    unfold Path.pt
    congr 1
    exact (Path.inc h hρ hT (by rw [← eR, hlx]; decide) hk (by omega) (by omega)).symm
  · intro hown k e hk i hi
    have hd : po.irkRep = .differential := by
      unfold ownEnd at hown; simpa [hr] using hown
    have hni : o.irkRep ≠ .integral := by rw [← eR, hd]; decide
    unfold EndEq
    rw [hd, if_neg (by decide), Path.env_start hl, Path.env_h hf']
    change T.X k e i = T.start po k e i + ∑ j ∈ Finset.range po.nS,
      T.H k e * po.bIrk j * (T.speed k * T.slope um k e i)
    rw [hT.step k e hk i (by omega), eS, ← Finset.sum_mul, ← Finset.mul_sum,
      Finset.sum_congr rfl fun j hj => hρ.weights hni j (Finset.mem_range.1 hj)]
    ring
  · intro k e hk he
    rw [hr, if_pos rfl, xv hk (by omega), Path.ptL_last hl]
    intro i hi
    rw [Path.env_u h.toSetup, Path.env_p h.toSetup, Path.env_v h.toSetup]
    exact hT.path k e hk he i hi
  · intro hst k e hk j hj i hi
    rw [hpl.stage (h.e_gPathAtStg.symm.trans hst)] at hi
    omega
  · intro k e hk j hj r hr
    simp [stageComps, hpl.noComp] at hr
  · intro k e hk _ r hr
    simp [ctrlComps, hpl.noComp] at hr
  · intro r hr
    simp [globComps, hpl.noComp] at hr
  · intro _ _ k e hk j hj q hq
    refine ⟨comp ?_ (nnS hk q hq) ?_, fun j' hj' => comp ?_ (nnL q hq) ?_⟩
    · simpa using nnT hk q hq
    · simpa using zS (j := j) hk q hq
    · simpa using nnT hk q hq
    · simpa using zL (j := j) hk hj' q hq
  · intro _ _ k e hk j hj q hq
    rw [nLamPts_rbe hr]
    refine comp ?_ (nnT hk q hq) ?_
    · intro x hx
      rcases List.mem_append.1 hx with hx | hx
      · obtain ⟨j', hj', rfl⟩ := List.mem_map.1 hx
        exact nnL q hq
      · rw [List.mem_singleton.1 hx]
        exact nnS hk q hq
    · intro x hx
      rw [mul_comm]
      rcases List.mem_append.1 hx with hx | hx
      · obtain ⟨j', hj', rfl⟩ := List.mem_map.1 hx
        exact zL hk (List.mem_range.1 hj') q hq
      · rw [List.mem_singleton.1 hx]
        exact zS hk q hq
  · intro _ he k hk
    rw [← hT.equi he k hk]
    exact Finset.sum_congr rfl fun e _ => Path.env_h hf' k e
  · intro hN _ he
    rw [← hT.time hN he]
    exact Finset.sum_congr rfl fun k _ => Finset.sum_congr rfl fun e _ => Path.env_h hf' k e
  · intro t _ h0
    exact absurd (h0.symm.trans (h.e_timeFreezing.trans hpl.freeze)) (by decide)
  · intro i hi
    rw [Path.env_xEnd h.toSetup hl, Path.env_p h.toSetup, Path.env_v h.toSetup]
    exact hT.term i hi


/-- The point of a path solves the problem exactly. -/
theorem Path.point (h : SetupEx colloc o um uo po m oc P) (hp : o.pss = .stewart)
    (hf : o.useFesd = true) (hr : po.rbe = true) (hm : ExactMode o) (hS : SignsOk o um)
    (hpc : um.PiecewiseConstant) (hpl : PlainProblem o um (uo.getD UserOcp.trivial))
    (hc : o.irkRep = .integral → CollocOk (colloc o.scheme o.nS) o.nS)
    (hb : SchemeWeights colloc o b) (hρ : Fractions colloc o po b ρ)
    (hT : T.Solves um (uo.getD UserOcp.trivial) po (∑ j ∈ Finset.range o.nS, b j)) :
    ExactPoint o po m P (T.env po um ρ) ∧ um.InitialMultipliers po m.dims (T.env po um ρ) := by
  have hp' := h.e_pss.trans hp
  obtain ⟨dX, -, -, -, -, -, dS, dF, -⟩ := h.toSetup.dims
  refine ⟨⟨hf, hm, (h.iff hpl.mode.1).2 (Path.feasible h hp hf hr hS hpc hpl
    hc hb hρ hT), rfl, fun _ => rfl, fun q hq => ?_⟩, ?_⟩
  · cases q with
    | region s i => exact lam00St_pos um _ _ (by
        rw [← dF hp' s (by rw [← dS]; exact hq.2.1)]; exact hq.2.2)
    | neg s i => exact absurd (hp'.symm.trans hq.1) (by decide)
    | pos s i => exact absurd (hp'.symm.trans hq.1) (by decide)
  · unfold UserModel.InitialMultipliers
    rw [hp']
    intro s hs
    refine ⟨-⨅ i : Fin (um.Fmat s).nCols, um.gVal s i ((List.range um.nX).map T.x0) [] (T.pL um 0),
      fun i hi => ?_⟩
    rw [Path.env_p h.toSetup, dX]
    change um.gVal s i ((List.range um.nX).map T.x0) [] (T.pL um 0) = um.lam00St _ _ _ _ _ - -_
    unfold UserModel.lam00St
    ring

/-- C93: FESD loses no solution of a piecewise constant system.  Every polygonal Filippov solution whose
corners fit on the grid (step boxes, stage lengths), and which respects bounds, path and terminal
constraints, is a feasible point of the generated NLP with exact complementarity, with these controls,
parameters, step lengths and states, and with the multipliers of the initial state that the solver object
computes. -/
theorem C93_no_solution_lost (h : SetupEx colloc o um uo po m oc P) (hp : o.pss = .stewart)
    (hf : o.useFesd = true) (hr : po.rbe = true) (hm : ExactMode o) (hS : SignsOk o um)
    (hpc : um.PiecewiseConstant) (hpl : PlainProblem o um (uo.getD UserOcp.trivial))
    (hc : o.irkRep = .integral → CollocOk (colloc o.scheme o.nS) o.nS ∧
      ∀ t ∈ colloc o.scheme o.nS, 0 ≤ t ∧ t ≤ 1)
    (hb : SchemeWeights colloc o b)
    (hT : T.Solves um (uo.getD UserOcp.trivial) po (∑ j ∈ Finset.range o.nS, b j)) :
    ∃ env, ExactPoint o po m P env ∧ um.InitialMultipliers po m.dims env ∧
      (∀ i, env (.x0 i) = T.x0 i) ∧ (∀ k i, env (.u k i) = T.u k i) ∧ (∀ i, env (.vGlob i) = T.v i) ∧
      (∀ k i, env (.pStage k i) = T.p k i) ∧
      (∀ s i, env (.lam00 .lam s i)
        = um.lam00St ((List.range um.nX).map T.x0) [] (T.pL um 0) s i) ∧
      ∀ k e, HasFE po k e → hVal po k e env = T.H k e ∧ sotVal po k env = T.speed k ∧
        xEndVal po m.dims k e env = T.endL um k e ∧
        ∀ j < o.nS, ∀ s i, env (.st2 .theta k e j s i) = T.theta k e s i := by
  obtain ⟨ρ, hρ⟩ := fractions_exist h hr hb hc
  have hl : ρ (po.nS - 1) = 1 := by rw [h.e_nS]; exact hρ.last
  obtain ⟨p1, p2⟩ := Path.point h hp hf hr hm hS hpc hpl (fun hi => (hc hi).1) hb hρ hT
  exact ⟨T.env po um ρ, p1, p2, fun _ => rfl,
    fun _ _ => rfl, fun _ => rfl, fun _ _ => rfl, fun _ _ => rfl, fun k e hk =>
    ⟨Path.env_h (h.e_useFesd.trans hf) k e, Path.env_sot hT hk.1, Path.env_xEnd h.toSetup hl k e,
      fun _ _ _ _ => rfl⟩⟩

end
end

/-! ### A concrete case: reaching the surface and sliding, with the default options -/

section
variable {po : PreOpts} {m : PreModel} {oc : PreOcp} {P : Problem}

theorem slide_solves {N nf : Nat} {pol : Bool} (hN : N = 1 ∧ nf = 2 ∨ N = 2 ∧ nf = 1)
    (h : SetupEx demoColloc (slideOpts N nf pol) slideModel (some UserOcp.trivial) po m oc P) :
    slidePath.Solves slideModel UserOcp.trivial po
      (∑ j ∈ Finset.range (slideOpts N nf).nS, slideW j) := by
  have e1 : po.nStages = N := h.e_nStages
  have e2 : ∀ k < N, nfe po k = nf := by
    intro k hk
    have := h.e_nfeList
    unfold nfe
    rw [this]
    rcases hN with ⟨rfl, rfl⟩ | ⟨rfl, rfl⟩
    · obtain rfl : k = 0 := by omega
      rfl
    · obtain rfl | rfl : k = 0 ∨ k = 1 := by omega
      · rfl
      · rfl
  have e3 : po.terminalTime = 1 := h.e_terminalTime
  have e4 : po.gammaH = 1 := h.e_gammaH
  have e5 : po.equidistant = true := h.e_equidistant
  have e6 : po.sot = .none := h.e_sot
  have hW : ∑ j ∈ Finset.range (slideOpts N nf).nS, slideW j = 1 := by
    simp [slideOpts, Opts.default, Finset.sum_range_succ, slideW]; norm_num
  have lt : ∀ {k e}, HasFE po k e → k < N ∧ e < nf := by
    intro k e hk
    have h1 := hk.1
    rw [e1] at h1
    have h2 := hk.2
    rw [e2 k h1] at h2
    exact ⟨h1, h2⟩
  have s0 : ∀ i, slidePath.start po 0 0 i = 1 / 2 := fun i => by simp [Path.start, prevFe, slidePath]
  have s1 : ∀ k e, ¬ (k = 0 ∧ e = 0) → ∀ i, slidePath.start po k e i = 0 := by
    intro k e hne i
    unfold Path.start prevFe
    by_cases he : 0 < e
    · simp [he, slidePath]
    · have : 0 < k := by omega
      simp [he, this, slidePath]
  have sl0 : ∀ i, slidePath.slope slideModel 0 0 i = -1 := fun i => by
    simp [Path.slope, slidePath, slideModel, UserModel.nSys, UserModel.Fmat, Finset.sum_range_succ]
  have sl1 : ∀ k e, ¬ (k = 0 ∧ e = 0) → ∀ i, slidePath.slope slideModel k e i = 0 := fun k e hne i => by
    simp [Path.slope, slidePath, slideModel, UserModel.nSys, UserModel.Fmat, Finset.sum_range_succ, hne]
  have hcl : ∀ k e, ∀ s < slideModel.nSys, ∀ i < (slideModel.Fmat s).nCols,
      slidePath.theta k e s i ≠ 0 →
      slideModel.InClosedRegion s i (slidePath.startL po slideModel k e) (slidePath.pL slideModel k) ∧
      slideModel.InClosedRegion s i (slidePath.endL slideModel k e) (slidePath.pL slideModel k) := by
    intro k e s hs i hi hθ
    obtain rfl := slide_sys hs
    by_cases hz : k = 0 ∧ e = 0
    · obtain ⟨rfl, rfl⟩ := hz
      have hi0 : i = 0 := by
        by_contra hne
        exact hθ (by simp [slidePath, hne])
      subst hi0
      constructor <;> intro n hn
      · simp [slideModel, UserModel.Smat, UserModel.cVec, signMat, Path.startL, s0]
      · simp [slideModel, UserModel.Smat, UserModel.cVec, signMat, Path.endL, slidePath]
    · constructor <;> intro n hn
      · simp [slideModel, UserModel.Smat, UserModel.cVec, signMat, Path.startL, s1 k e hz]
      · simp [slideModel, UserModel.Smat, UserModel.cVec, signMat, Path.endL, slidePath]
  rw [hW]
  refine ⟨?_, ?_, fun k e _ => hcl k e, ?_, ?_, ?_, ?_, ?_, ?_, ?_, ?_, ?_, ?_, ?_, ?_⟩
  · intro k e hk i _
    by_cases hz : k = 0 ∧ e = 0
    · obtain ⟨rfl, rfl⟩ := hz
      rw [s0, sl0]; norm_num [slidePath]
    · rw [s1 k e hz, sl1 k e hz]; norm_num [slidePath]
  · intro k e hk s hs
    obtain rfl := slide_sys hs
    by_cases hz : k = 0 ∧ e = 0
    · refine ⟨fun i _ => ?_, ?_⟩
      · simp only [slidePath, hz, and_self, if_true]; split <;> norm_num
      · simp [slidePath, slideModel, UserModel.Fmat, Finset.sum_range_succ, hz]
    · refine ⟨fun i _ => by simp [slidePath, hz], ?_⟩
      simp [slidePath, slideModel, UserModel.Fmat, hz]
  · intro k e hk s hs i hi hθ
    obtain rfl := slide_sys hs
    exact fun n hn => (hcl k e 0 hs i hi hθ).1 n hn
  · intro k e hk
    unfold nominalH
    rw [e1, e2 k (lt hk).1, e3, e4]
    rcases hN with ⟨rfl, rfl⟩ | ⟨rfl, rfl⟩ <;> norm_num [slidePath]
  · intro _ k hk
    rw [e1, e2 k (by omega), e3]
    rcases hN with ⟨rfl, rfl⟩ | ⟨rfl, rfl⟩ <;> simp [slidePath]
  · intro _ h1; rw [e5] at h1; cases h1
  · intro _ k _; rfl
  · intro h0; rw [e6] at h0; cases h0
  · intro i _; exact ⟨bot_le, le_top⟩
  · intro k e _ i _; exact ⟨bot_le, le_top⟩
  · intro k _ i hi; exact absurd hi (by simp [slideModel])
  · intro i hi; exact absurd hi (by simp [slideModel])
  · intro k e _ _ i hi; exact absurd hi (by simp [UserOcp.trivial])
  · intro i hi; exact absurd hi (by simp [UserOcp.trivial])

/-- The hypotheses of C93 are met by a trajectory that reaches the switching surface at `t = 1/2` and then
slides along it, with the default options. -/
example : ∃ po m oc P, SetupEx demoColloc Opts.default slideModel (some UserOcp.trivial) po m oc P ∧
    Opts.default.pss = .stewart ∧ Opts.default.useFesd = true ∧ po.rbe = true ∧
    ExactMode Opts.default ∧ SignsOk Opts.default slideModel ∧ slideModel.PiecewiseConstant ∧
    PlainProblem Opts.default slideModel UserOcp.trivial ∧
    SchemeWeights demoColloc Opts.default slideW ∧
    slidePath.Solves slideModel UserOcp.trivial po (∑ j ∈ Finset.range Opts.default.nS, slideW j) := by
  have hN : 1 = 1 ∧ 2 = 2 ∨ 1 = 2 ∧ 2 = 1 := .inl ⟨rfl, rfl⟩
  obtain ⟨po, m, oc, P, h, hr⟩ := slide_setup hN
  exact ⟨po, m, oc, P, h, rfl, rfl, hr, .inl (by simp [SignedMode, Opts.default]), slide_signs 1 2,
    slide_pc, slide_plain 1 2, slide_weights 1 2, slide_solves hN h⟩

/-- The point that C93 yields for this trajectory. -/
theorem slide_point {N nf : Nat} (hN : N = 1 ∧ nf = 2 ∨ N = 2 ∧ nf = 1) : ∃ po m oc P env,
    SetupEx demoColloc (slideOpts N nf) slideModel (some UserOcp.trivial) po m oc P ∧
    ExactPoint (slideOpts N nf) po m P env ∧
    slideModel.InitialMultipliers po m.dims env ∧ slideModel.SameSwitching po m.dims env ∧
    po.rbe = true ∧ (∀ k e, HasFE po k e ↔ k < N ∧ e < nf) ∧
    (∀ k e, HasFE po k e → 0 ≤ hVal po k e env) ∧ env (.x0 0) = 1 / 2 ∧
    xEndVal po m.dims 0 0 env = [0] ∧
    ∀ k e, HasFE po k e → ¬ (k = 0 ∧ e = 0) → ∀ j < 2, ∀ i, env (.st2 .theta k e j 0 i) = 1 / 2 := by
  obtain ⟨po, m, oc, P, h, hr⟩ := slide_setup hN
  obtain ⟨env, D, i1, i3, -, -, -, -, i4⟩ := C93_no_solution_lost h rfl rfl hr
    (.inl (by simp [SignedMode, slideOpts, Opts.default])) (slide_signs N nf) slide_pc
    (slide_plain N nf) (fun _ => slide_colloc N nf) (slide_weights N nf) (slide_solves hN h)
  have e1 : po.nStages = N := h.e_nStages
  have e2 : ∀ k < N, nfe po k = nf := by
    intro k hk
    have := h.e_nfeList
    unfold nfe
    rw [this]
    rcases hN with ⟨rfl, rfl⟩ | ⟨rfl, rfl⟩
    · obtain rfl : k = 0 := by omega
      rfl
    · obtain rfl | rfl : k = 0 ∨ k = 1 := by omega
      · rfl
      · rfl
  have fe : ∀ k e, HasFE po k e ↔ k < N ∧ e < nf := by
    intro k e
    unfold HasFE
    rw [e1]
    exact and_congr_right fun hk => by rw [e2 k hk]
  refine ⟨po, m, oc, P, env, h, D, i1, fun k hk s hs n x => ?_, hr, fe, fun k e hk => ?_, i3 0, ?_,
    fun k e hk hne j hj i => ?_⟩
  · obtain rfl := slide_sys hs
    rfl
  · rw [(i4 k e hk).1]; norm_num [slidePath]
  · rw [(i4 0 0 ((fe 0 0).2 (by omega))).2.2.1]; rfl
  · rw [(i4 k e hk).2.2.2 j hj]
    simp [slidePath, hne]

/-- The hypotheses of C92 are met. -/
example : ∃ po m oc P env, SetupEx demoColloc Opts.default slideModel (some UserOcp.trivial) po m oc P ∧
    ExactPoint Opts.default po m P env ∧ slideModel.F.isSome = true ∧
    SignsOk Opts.default slideModel ∧ slideModel.PiecewiseConstant ∧
    slideModel.InitialMultipliers po m.dims env ∧ slideModel.SameSwitching po m.dims env ∧
    SchemeWeights demoColloc Opts.default slideW ∧
    CollocOk (demoColloc Opts.default.scheme Opts.default.nS) Opts.default.nS ∧ po.rbe = true ∧
    (∀ k e, HasFE po k e → 0 ≤ hVal po k e env) ∧ HasFE po 0 0 ∧ HasFE po 0 1 ∧
    env (.x0 0) = 1 / 2 ∧ xEndVal po m.dims 0 0 env = [0] := by
  obtain ⟨po, m, oc, P, env, h, D, i1, i2, hr, fe, hh, hx, hX, -⟩ := slide_point (N := 1) (nf := 2)
    (.inl ⟨rfl, rfl⟩)
  exact ⟨po, m, oc, P, env, h, D, rfl, slide_signs 1 2, slide_pc, i1, i2, slide_weights 1 2,
    (slide_colloc 1 2).1, hr, hh, (fe 0 0).2 (by omega), (fe 0 1).2 (by omega), hx, hX⟩

end
end Nosnoc
