import Mathlib.Analysis.SpecialFunctions.Pow.Real
import Mathlib.Analysis.SpecialFunctions.Trigonometric.DerivHyp
import Verif.Proofs.Lam00
import Verif.Proofs.DcsAlg
/-
Helper lemmas: the smoothed multipliers.
-/
namespace Nosnoc

theorem smoothStep_mem (sm y : ℝ) : 0 < smoothStep sm y ∧ smoothStep sm y < 1 := by
  unfold smoothStep
  have h1 := Real.neg_one_lt_tanh (1 / sm * y)
  have h2 := Real.tanh_lt_one (1 / sm * y)
  constructor <;> linarith

theorem foldl_mul {α : Type*} (l : List α) (f : α → ℝ) (a : ℝ) :
    l.foldl (fun acc j => acc * f j) a = a * (l.map f).prod := by
  induction l generalizing a with
  | nil => simp
  | cons b l ih => rw [List.foldl_cons, ih, List.map_cons, List.prod_cons, mul_assoc]

theorem prod_list_range (n : Nat) (f : Nat → ℝ) :
    ((List.range n).map f).prod = ∏ j ∈ Finset.range n, f j := by
  induction n with
  | zero => simp
  | succ n ih => rw [List.range_succ, List.map_append, List.prod_append, ih, Finset.prod_range_succ]; simp

theorem sum_list_range' (n : Nat) (f : Nat → ℝ) :
    ((List.range n).map f).sum = ∑ j ∈ Finset.range n, f j := by
  induction n with
  | zero => simp
  | succ n ih => rw [List.range_succ, List.map_append, List.sum_append, ih, Finset.sum_range_succ]; simp

/-- The factor `2^(n_c - n_R)` undoes the factors `1/2` of the zero entries. -/
theorem thetaSmooth_eq {S : SMat} (hS : S.IsSign) {i : Nat} (hi : i < S.rows) (α : Nat → ℝ) :
    thetaSmooth S S.cols α i = regionWeight S i α := by
  classical
  unfold thetaSmooth regionWeight
  rw [foldl_mul, prod_list_range, sum_list_range',
    ← Finset.prod_filter_mul_prod_filter_not (Finset.range S.cols) (fun k => S.entry i k ≠ 0)]
  have h1 : ∏ x ∈ (Finset.range S.cols).filter (fun k => ¬ S.entry i k ≠ 0),
      ((1 - S.entry i x) / 2 + S.entry i x * α x)
      = (1 / 2 : ℝ) ^ ((Finset.range S.cols).filter (fun k => ¬ S.entry i k ≠ 0)).card := by
    rw [← Finset.prod_const]
    refine Finset.prod_congr rfl fun k hk => ?_
    rw [Finset.mem_filter, not_not] at hk
    rw [hk.2]; norm_num
  have h2 : ∑ j ∈ Finset.range S.cols, |S.entry i j|
      = (((Finset.range S.cols).filter (fun k => S.entry i k ≠ 0)).card : ℝ) := by
    rw [Finset.card_filter, Nat.cast_sum]
    refine Finset.sum_congr rfl fun k hk => ?_
    rcases hS i hi k (Finset.mem_range.1 hk) with e | e | e <;> rw [e] <;> norm_num
  have h3 : (S.cols : ℝ) - ((Finset.range S.cols).filter (fun k => S.entry i k ≠ 0)).card
      = (((Finset.range S.cols).filter (fun k => ¬ S.entry i k ≠ 0)).card : ℝ) := by
    have := Finset.card_filter_add_card_filter_not (s := Finset.range S.cols)
      (fun k => S.entry i k ≠ 0)
    rw [Finset.card_range] at this
    rw [sub_eq_iff_eq_add, ← Nat.cast_add, add_comm, this]
  rw [h1, h2, h3, Real.rpow_natCast, mul_left_comm, ← mul_pow]
  norm_num

theorem weight_pos {S : SMat} (hS : S.IsSign) {i : Nat} (hi : i < S.rows) {α : Nat → ℝ}
    (h01 : ∀ k < S.cols, 0 < α k ∧ α k < 1) : 0 < regionWeight S i α := by
  refine Finset.prod_pos fun k hk => ?_
  rw [Finset.mem_filter, Finset.mem_range] at hk
  have h := h01 k hk.1
  rcases hS i hi k hk.1 with e | e | e
  · rw [e]; linarith
  · exact absurd e hk.2
  · rw [e]; linarith

/-! ### smoothed minimum -/

theorem expSum_pos (sm : ℝ) {g : List ℝ} (hg : g ≠ []) :
    0 < (g.map fun x => Real.exp (-1 / sm * x)).sum := by
  apply List.sum_pos
  · intro x hx
    obtain ⟨y, -, rfl⟩ := List.mem_map.1 hx
    exact Real.exp_pos _
  · simpa using hg

theorem smoothMin_le (sm : ℝ) {g : List ℝ} (hg : g ≠ []) {M : ℝ} (hM : ∀ x ∈ g, x ≤ M) :
    smoothMin sm g ≤ M := by
  unfold smoothMin
  rw [div_le_iff₀ (expSum_pos sm hg), ← List.sum_map_mul_left]
  exact List.sum_le_sum fun x hx => mul_le_mul_of_nonneg_right (hM x hx) (Real.exp_pos _).le

theorem le_smoothMin (sm : ℝ) {g : List ℝ} (hg : g ≠ []) {M : ℝ} (hM : ∀ x ∈ g, M ≤ x) :
    M ≤ smoothMin sm g := by
  unfold smoothMin
  rw [le_div_iff₀ (expSum_pos sm hg), ← List.sum_map_mul_left]
  exact List.sum_le_sum fun x hx => mul_le_mul_of_nonneg_right (hM x hx) (Real.exp_pos _).le

/-! ### the model functions -/

/-- The smoothed weights of system `s` as expressions. -/
noncomputable def thetaExprs (um : UserModel) (d : Dims) (sm : ℝ) (s : Nat) : Vec :=
  (List.range (d.nF s)).map fun i env =>
    thetaSmooth (um.Smat s) (d.nC s) (fun j => smoothStep sm ((um.cVec s).expr d j env)) i

/-- Stewart's indicator functions of system `s` as expressions. -/
def gExprs (um : UserModel) (d : Dims) (s : Nat) : Vec :=
  (List.range (um.Smat s).rows).map fun i env =>
    ((List.range (um.Smat s).cols).map
      fun k => -((um.Smat s).entry i k) * at' ((um.cVec s).vec d) k env).sum

/-- What `addSmooth` has checked of system `s`. -/
structure SmoothSys (um : UserModel) (d : Dims) (s : Nat) : Prop where
  rows : (um.Smat s).rows = d.nF s
  cols : (um.Smat s).cols = (um.cVec s).len
  nF : (um.Fmat s).nCols = d.nF s

theorem gList_ok {um : UserModel} {d : Dims} {g : List Vec}
    (h : ((List.range d.nSys).mapM fun i => do
      let S ← optGet um.S i
      let c ← optGet um.c i
      negSmulC S (c.vec d)) = .ok g) :
    g = (List.range d.nSys).map (gExprs um d) ∧
    ∀ s < d.nSys, (um.Smat s).cols = (um.cVec s).len := by
  rw [mapM_eq_ok] at h
  have key : ∀ i b, (do
      let S ← optGet um.S i
      let c ← optGet um.c i
      negSmulC S (c.vec d)) = .ok b → b = gExprs um d i ∧ (um.Smat i).cols = (um.cVec i).len := by
    intro s b hb
    simp only [bind_eq_ok] at hb
    obtain ⟨S, hS, c, hc, h2⟩ := hb
    rw [optGet_eq_ok] at hS hc
    obtain ⟨Ss, hSs, hS⟩ := hS
    obtain ⟨cs, hcs, hc⟩ := hc
    have hSK : um.Smat s = S := by simp [UserModel.Smat, hSs, hS]
    have hcK : um.cVec s = c := by simp [UserModel.cVec, hcs, hc]
    unfold negSmulC at h2
    split at h2
    · rename_i hl
      injection h2 with h2
      refine ⟨?_, by rw [hSK, hcK, hl]; simp [UVec.vec]⟩
      rw [← h2]
      unfold gExprs
      rw [hSK, hcK]
    · cases h2
  have h' := h.imp fun i b hb => key i b hb
  constructor
  · clear key h
    generalize List.range d.nSys = l at h'
    induction h' with
    | nil => rfl
    | cons h1 h2 ih => rw [List.map_cons, ← ih, h1.1]
  · intro s hs
    have := List.forall₂_iff_get.1 h'
    have hl := this.1
    simp only [List.length_range] at hl
    have := (this.2 s (by simpa using hs) (by omega)).2
    simpa using this

theorem smoothBody_ok {um : UserModel} {d : Dims} {sm : ℝ} {acc acc' : SmoothAcc} {s : Nat}
    (hs : s < d.nSys)
    (h : smoothBody um d sm ((List.range d.nSys).map (gExprs um d)) acc s = .ok acc') :
    ((um.Smat s).rows = d.nF s ∧ (um.Fmat s).nCols = d.nF s) ∧
    acc' = { fx := vadd acc.fx ((List.range d.nX).map fun row env =>
               ((List.range (um.Fmat s).nCols).map fun col =>
                 (um.Fmat s).expr d row col env * at' (thetaExprs um d sm s) col env).sum)
             theta := acc.theta ++ thetaExprs um d sm s
             mu := acc.mu ++ [fun env => -smoothMin sm (evalVec (gExprs um d s) env)]
             lambda := acc.lambda ++ (gExprs um d s).map
               fun e env => e env - smoothMin sm (evalVec (gExprs um d s) env) } := by
  unfold smoothBody at h
  simp only [bind_eq_ok, check_eq_ok] at h
  obtain ⟨c, hc, S, hS, F, hF, gs, hgs, _, hlen, Fth, hFth, h⟩ := h
  rw [optGet_eq_ok] at hc hS hF hgs
  obtain ⟨cs, hcs, hc⟩ := hc
  obtain ⟨Ss, hSs, hS⟩ := hS
  obtain ⟨Fs, hFs, hF⟩ := hF
  obtain ⟨gl, hgl, hgs⟩ := hgs
  injection hgl with hgl
  subst hgl
  have hSK : um.Smat s = S := by simp [UserModel.Smat, hSs, hS]
  have hcK : um.cVec s = c := by simp [UserModel.cVec, hcs, hc]
  have hFK : um.Fmat s = F := by simp [UserModel.Fmat, hFs, hF]
  have hg : gs = gExprs um d s := by
    rw [List.getElem?_map, List.getElem?_range hs] at hgs
    injection hgs with hgs
    exact hgs.symm
  subst hg
  unfold UMat.mul at hFth
  split at hFth
  · rename_i hn
    injection hFth with hFth
    injection h with h
    rw [List.length_map, List.length_range] at hn
    refine ⟨⟨?_, by rw [hFK]; exact hn⟩, ?_⟩
    · simpa [gExprs] using hlen
    · rw [← h, ← hFth, hFK]
      unfold thetaExprs
      rw [hSK, hcK]
  · cases hFth

theorem smoothLoop_ok {um : UserModel} {d : Dims} {sm : ℝ} (l : List Nat) (hl : ∀ s ∈ l, s < d.nSys)
    {acc acc' : SmoothAcc}
    (h : l.foldlM (smoothBody um d sm ((List.range d.nSys).map (gExprs um d))) acc = .ok acc') :
    (∀ s ∈ l, (um.Smat s).rows = d.nF s ∧ (um.Fmat s).nCols = d.nF s) ∧
    acc'.fx = l.foldl (fun f s => vadd f ((List.range d.nX).map fun row env =>
               ((List.range (um.Fmat s).nCols).map fun col =>
                 (um.Fmat s).expr d row col env * at' (thetaExprs um d sm s) col env).sum)) acc.fx ∧
    acc'.theta = acc.theta ++ l.flatMap (thetaExprs um d sm) ∧
    acc'.mu = acc.mu ++ l.map (fun s env => -smoothMin sm (evalVec (gExprs um d s) env)) ∧
    acc'.lambda = acc.lambda ++ l.flatMap fun s => (gExprs um d s).map
               fun e env => e env - smoothMin sm (evalVec (gExprs um d s) env) := by
  induction l generalizing acc with
  | nil =>
    cases h
    simp
  | cons s l ih =>
    rw [List.foldlM_cons, bind_eq_ok] at h
    obtain ⟨acc1, h1, h2⟩ := h
    obtain ⟨hs, rfl⟩ := smoothBody_ok (hl s (by simp)) h1
    obtain ⟨a1, a2, a3, a4, a5⟩ := ih (fun t ht => hl t (by simp [ht])) h2
    refine ⟨?_, ?_, ?_, ?_, ?_⟩
    · intro t ht
      rcases List.mem_cons.1 ht with rfl | ht
      · exact hs
      · exact a1 t ht
    · rw [a2, List.foldl_cons]
    · rw [a3, List.flatMap_cons, List.append_assoc]
    · rw [a4, List.map_cons, List.append_assoc]; rfl
    · rw [a5, List.flatMap_cons, List.append_assoc]

/-- What `addSmooth` returns. -/
theorem addSmooth_ok {um : UserModel} {d : Dims} {sm : ℝ} {sf : SmoothFuns}
    (h : addSmooth um d sm = .ok sf) :
    um.gStewartTruthy = false ∧ 0 < sm ∧ (∀ s < d.nSys, SmoothSys um d s) ∧
    sf.fx = ⟨[d.mX], (List.range d.nSys).foldl (fun f s => vadd f ((List.range d.nX).map fun row env =>
               ((List.range (um.Fmat s).nCols).map fun col =>
                 (um.Fmat s).expr d row col env * at' (thetaExprs um d sm s) col env).sum))
              (List.replicate d.nX (const 0))⟩ ∧
    sf.theta = ⟨[d.mX, d.mP], (List.range d.nSys).flatMap (thetaExprs um d sm)⟩ ∧
    sf.mu = ⟨[d.mX, d.mP], (List.range d.nSys).map
      (fun s env => -smoothMin sm (evalVec (gExprs um d s) env))⟩ ∧
    sf.lambda = ⟨[d.mX, d.mP], (List.range d.nSys).flatMap fun s => (gExprs um d s).map
      fun e env => e env - smoothMin sm (evalVec (gExprs um d s) env)⟩ := by
  unfold addSmooth at h
  simp only [bind_eq_ok, check_eq_ok] at h
  obtain ⟨_, hg, _, hsm, g, hgl, acc, hacc, h⟩ := h
  have hgl' : ((List.range d.nSys).mapM fun i => do
      let S ← optGet um.S i
      let c ← optGet um.c i
      negSmulC S (c.vec d)) = .ok g := by
    rw [mapM_eq_ok] at hgl ⊢
    exact hgl.imp fun i b hb => by simpa only [bind_eq_ok] using hb
  obtain ⟨rfl, hcols⟩ := gList_ok hgl'
  obtain ⟨a1, a2, a3, a4, a5⟩ := smoothLoop_ok _ (fun s hs => List.mem_range.1 hs) hacc
  injection h with h
  subst h
  refine ⟨hg, hsm, fun s hs => ⟨(a1 s (List.mem_range.2 hs)).1, hcols s hs,
    (a1 s (List.mem_range.2 hs)).2⟩, ?_, ?_, ?_, ?_⟩
  · rw [a2]
  · rw [a3]; rfl
  · rw [a4]; rfl
  · rw [a5]; rfl

/-- Binding of state and parameters to numbers. -/
theorem bind2 {d : Dims} {x p : List ℝ} (hx : x.length = d.nX)
    (hp : p.length = d.nPtv + d.nPgl) (env : Env) :
    let env' := rebind [d.mX, d.mP].flatten (([x, p].map (List.map const)).flatten) env
    d.mX.map env' = x ∧ d.mP.map env' = p := by
  intro env'
  have hl : [d.mX, d.mP].map List.length = ([x, p].map (List.map const)).map List.length := by
    simp [hx, hp, Dims.mX, Dims.mP]
  have hn : [d.mX, d.mP].flatten.Nodup :=
    nodup_kinds (ks := [0, 3]) (by decide)
      (.cons ⟨nodup_mX, fun _ => kind_mX⟩ (.cons ⟨nodup_mP, fun _ => kind_mP⟩ .nil))
  have key := fun i h1 h2 => map_rebind_flatten (env := env) hl hn (i := i) h1 h2
  have e : ∀ l : List ℝ, evalVec (l.map const) env = l := by
    intro l; simp [evalVec, const, Function.comp_def]
  exact ⟨(key 0 (by simp) (by simp)).trans (e _), (key 1 (by simp) (by simp)).trans (e _)⟩

theorem bind1 {d : Dims} {x : List ℝ} (hx : x.length = d.nX) (env : Env) :
    d.mX.map (rebind [d.mX].flatten (([x].map (List.map const)).flatten) env) = x := by
  have hl : [d.mX].map List.length = ([x].map (List.map const)).map List.length := by
    simp [hx, Dims.mX]
  have hn : [d.mX].flatten.Nodup :=
    nodup_kinds (ks := [0]) (by decide) (.cons ⟨nodup_mX, fun _ => kind_mX⟩ .nil)
  have key := fun i h1 h2 => map_rebind_flatten (env := env) hl hn (i := i) h1 h2
  have e : ∀ l : List ℝ, evalVec (l.map const) env = l := by
    intro l; simp [evalVec, const, Function.comp_def]
  exact (key 0 (by simp) (by simp)).trans (e _)

/-- Value of a sum of vectors. -/
theorem foldl_vadd_eval {d : Dims} (l : List Nat) (f : Nat → Nat → Expr) (a : Vec) (ha : a.length = d.nX)
    (env : Env) :
    evalVec (l.foldl (fun v s => vadd v ((List.range d.nX).map (f s))) a) env
      = (List.range d.nX).map fun row => at' a row env + (l.map fun s => f s row env).sum := by
  induction l generalizing a with
  | nil =>
    simp only [List.foldl_nil, List.map_nil, List.sum_nil, add_zero]
    apply List.ext_getElem
    · simp [evalVec, ha]
    · intro i h1 h2
      have hi : i < a.length := by simpa [evalVec] using h1
      simp [evalVec, at', hi]
  | cons s l ih =>
    rw [List.foldl_cons, ih]
    · apply List.map_congr_left
      intro row hrow
      have hrow := List.mem_range.1 hrow
      rw [List.map_cons, List.sum_cons]
      have : at' (vadd a ((List.range d.nX).map (f s))) row env = at' a row env + f s row env := by
        unfold at' vadd
        have h1 : row < a.length := by omega
        simp [h1, hrow]
      rw [this]; ring
    · simp [vadd, ha]

end Nosnoc
