import Verif.Proofs.InitGuess
import Verif.Spec.Lam00
/-
Helper lemmas: the values of lambda00 and of the parameter vector.
-/
namespace Nosnoc

theorem foldl_min (l : List ℝ) (a : ℝ) :
    (l.foldl min a = a ∨ l.foldl min a ∈ l) ∧ l.foldl min a ≤ a ∧ ∀ x ∈ l, l.foldl min a ≤ x := by
  induction l generalizing a with
  | nil => simp
  | cons b l ih =>
    obtain ⟨h1, h2, h3⟩ := ih (min a b)
    rw [List.foldl_cons]
    refine ⟨?_, h2.trans (min_le_left _ _), ?_⟩
    · rcases h1 with h1 | h1
      · rw [h1]
        rcases min_choice a b with h | h
        · left; exact h
        · right; rw [h]; exact List.mem_cons_self
      · right; exact List.mem_cons_of_mem _ h1
    · intro x hx
      rcases List.mem_cons.1 hx with rfl | hx
      · exact h2.trans (min_le_right _ _)
      · exact h3 x hx

theorem mmin_mem {l : List ℝ} (h : l ≠ []) : mmin l ∈ l := by
  cases l with
  | nil => exact absurd rfl h
  | cons a l =>
    rcases (foldl_min l a).1 with h | h
    · show l.foldl min a ∈ _; rw [h]; exact List.mem_cons_self
    · exact List.mem_cons_of_mem _ h

theorem mmin_le {l : List ℝ} : ∀ x ∈ l, mmin l ≤ x := by
  cases l with
  | nil => simp
  | cons a l =>
    intro x hx
    rcases List.mem_cons.1 hx with rfl | hx
    · exact (foldl_min l x).2.1
    · exact (foldl_min l a).2.2 x hx

theorem mmin_eq_iInf {n : Nat} (f : Nat → ℝ) (hn : 0 < n) :
    mmin ((List.range n).map f) = ⨅ j : Fin n, f j := by
  haveI : Nonempty (Fin n) := ⟨⟨0, hn⟩⟩
  apply le_antisymm
  · apply le_ciInf
    intro j
    exact mmin_le _ (List.mem_map.2 ⟨j, List.mem_range.2 j.2, rfl⟩)
  · have hne : (List.range n).map f ≠ [] := by
      intro h; have := congrArg List.length h; simp at this; omega
    obtain ⟨j, hj, he⟩ := List.mem_map.1 (mmin_mem hne)
    rw [← he]
    exact ciInf_le (Set.finite_range fun j : Fin n => f j).bddBelow ⟨j, List.mem_range.1 hj⟩

theorem evalVec_map (g : List Expr) (f : Expr → Expr) (env : Env) :
    evalVec (g.map f) env = g.map fun e => f e env := by
  simp [evalVec]

section
variable {colloc : IrkScheme → Nat → List ℝ} {o : Opts} {um : UserModel} {uo : Option UserOcp}
  {po : PreOpts} {m : PreModel} {oc : PreOcp} {P : Problem} {orc : Oracle} {S : Solver}

/-- Binding of state, algebraic variables and parameters to numbers. -/
theorem bind3 {d : Dims} {x z p : List ℝ} (hx : x.length = d.nX) (hz : z.length = d.nZ)
    (hp : p.length = d.nPtv + d.nPgl) (env : Env) :
    let env' := rebind [d.mX, d.mZ, d.mP].flatten (([x, z, p].map (List.map const)).flatten) env
    d.mX.map env' = x ∧ d.mZ.map env' = z ∧ d.mP.map env' = p := by
  intro env'
  have hl : [d.mX, d.mZ, d.mP].map List.length
      = ([x, z, p].map (List.map const)).map List.length := by
    simp [hx, hz, hp, Dims.mX, Dims.mZ, Dims.mP]
  have hkz : ∀ t ∈ d.mZ, kindOf t = 1 := by
    intro t ht
    simp only [Dims.mZ, blk, List.mem_map] at ht
    obtain ⟨_, _, rfl⟩ := ht; rfl
  have hn : [d.mX, d.mZ, d.mP].flatten.Nodup :=
    nodup_kinds (ks := [0, 1, 3]) (by decide)
      (.cons ⟨nodup_mX, fun _ => kind_mX⟩ (.cons ⟨nodup_mZ, hkz⟩
        (.cons ⟨nodup_mP, fun _ => kind_mP⟩ .nil)))
  have key := fun i h1 h2 => map_rebind_flatten (env := env) hl hn (i := i) h1 h2
  have e : ∀ l : List ℝ, evalVec (l.map const) env = l := by
    intro l; simp [evalVec, const, Function.comp_def]
  exact ⟨(key 0 (by simp) (by simp)).trans (e _), (key 1 (by simp) (by simp)).trans (e _),
    (key 2 (by simp) (by simp)).trans (e _)⟩

/-- The value of `lambda00_fun`. -/
theorem lambda00_num (h : Setup colloc o um uo po m oc P) {x z p : List ℝ}
    (hx : x.length = um.nX) (hz : z.length = um.nZ) (hp : p.length = um.nPtv + um.nPgl) :
    m.lambda00Fun.num [x, z, p] = .ok (um.lam00List po.pss x z p) := by
  obtain ⟨nC, nF, g, up, f0, acc, hpre⟩ := h.built.pre
  obtain ⟨d1, -, d3, -, d5, d6, d7, d8, d9⟩ := h.dims
  unfold CFun.num
  rw [hpre.lam00]
  rw [CFun.call_ok (by simp [hx, hz, hp, d1, d3, d5, d6, Dims.mX, Dims.mZ, Dims.mP])]
  show Except.ok _ = Except.ok _
  congr 1
  obtain ⟨b1, b2, b3⟩ := bind3 (d := m.dims) (x := x) (z := z) (p := p) (by rw [d1]; exact hx)
    (by rw [d3]; exact hz) (by rw [d5, d6]; exact hp) (fun _ => 0)
  unfold CFun.app
  rw [evalVec_map]
  generalize henv : rebind [m.dims.mX, m.dims.mZ, m.dims.mP].flatten
    (([x, z, p].map (List.map const)).flatten) (fun _ => 0) = env at b1 b2 b3
  beta_reduce
  simp only [henv]
  cases hps : po.pss with
  | stewart =>
    obtain ⟨hsys, hacc⟩ := hpre.stewartAcc hps
    rw [hacc]
    simp only [Nosnoc.stewartAcc, UserModel.lam00List, List.map_flatMap]
    apply List.flatMap_congr
    intro s hs
    have hs := List.mem_range.1 hs
    have hg := hsys s hs
    have hlen : (g.getD s []).length = (um.Fmat s).nCols := by rw [hg.gLen, d8 hps s hs]
    unfold stewartLambda00
    rw [List.map_map]
    have hev : (g.getD s []).map (fun e => e env)
        = (List.range (um.Fmat s).nCols).map fun i => um.gVal s i x z p := by
      have key : ∀ i < (g.getD s []).length, at' (g.getD s []) i env = um.gVal s i x z p := by
        intro i hi
        have := gStewart_at hpre hps hs hg (i := i) (by rw [← hg.gLen]; exact hi) env
        rw [b1, b2, b3] at this
        exact this
      revert hlen key
      generalize g.getD s [] = gv
      intro hlen key
      apply List.ext_getElem
      · rw [List.length_map, hlen, List.length_map, List.length_range]
      · intro i h1 h2
        have hi : i < gv.length := by simpa using h1
        rw [List.getElem_map, List.getElem_map, List.getElem_range, ← key i hi, at',
          List.getD_eq_getElem?_getD, List.getElem?_eq_getElem hi]
        rfl
    by_cases hn : (um.Fmat s).nCols = 0
    · have : g.getD s [] = [] := List.length_eq_zero_iff.1 (by rw [hlen, hn])
      rw [this, hn]; rfl
    · have hm : mmin (evalVec (g.getD s []) env)
          = ⨅ j : Fin (um.Fmat s).nCols, um.gVal s j x z p := by
        rw [show evalVec (g.getD s []) env = (g.getD s []).map (fun e => e env) from rfl, hev]
        exact mmin_eq_iInf _ (Nat.pos_of_ne_zero hn)
      have : (g.getD s []).map ((fun e => e env) ∘ fun e env => e env - mmin (evalVec (g.getD s []) env))
          = ((g.getD s []).map (fun e => e env)).map
            fun v => v - ⨅ j : Fin (um.Fmat s).nCols, um.gVal s j x z p := by
        rw [List.map_map]
        apply List.map_congr_left
        intro e _
        simp only [Function.comp_def, hm]
      rw [this, hev, List.map_map]
      rfl
  | step =>
    obtain ⟨hsys, hacc⟩ := hpre.stepAcc hps
    rw [hacc]
    simp only [Nosnoc.stepAcc, UserModel.lam00List, List.map_flatMap]
    apply List.flatMap_congr
    intro s hs
    have hs := List.mem_range.1 hs
    rw [d9 hps s hs, List.map_append]
    unfold vec
    rw [List.map_map, List.map_map]
    congr 1
    · apply List.map_congr_left
      intro i _
      simp only [Function.comp_def, UVec.expr, UserModel.lam00Neg, b1, b2, b3]
      rw [← max_neg_neg, neg_zero]
    · apply List.map_congr_left
      intro i _
      simp only [Function.comp_def, UVec.expr, UserModel.lam00Pos, b1, b2, b3]

theorem z0_length (h : Setup colloc o um uo po m oc P) : m.z0.length = um.nZ := by
  rw [← h.dims.2.2.1]; exact h.built.data.z0

theorem Inv.pVal0 (hs : po.nStages ≠ 0) (hi : Inv po m P S) :
    ∃ p0, S.m.pVal[0]? = some p0 ∧ p0.length = m.dims.nPtv + m.dims.nPgl := by
  have hl := hi.pLen
  cases hp : S.m.pVal with
  | nil => rw [hp] at hl; exact absurd hl.symm hs
  | cons a l => exact ⟨a, rfl, hi.pRow a (by rw [hp]; exact List.mem_cons_self)⟩

theorem computeLambda00_ok (h : Setup colloc o um uo po m oc P) (hi : Inv po m P S)
    (hx : S.m.x0.length = um.nX) :
    ∃ p0, S.m.pVal[0]? = some p0 ∧ p0.length = um.nPtv + um.nPgl ∧
      S.m.computeLambda00 = .ok (um.lam00List po.pss S.m.x0 m.z0 p0) := by
  obtain ⟨p0, hp0, hl⟩ := hi.pVal0 h.built.ok.primal.stages
  obtain ⟨-, -, -, -, d5, d6, -⟩ := h.dims
  rw [d5, d6] at hl
  refine ⟨p0, hp0, hl, ?_⟩
  unfold PreModel.computeLambda00
  rw [bind_eq_ok]
  refine ⟨p0, listGet_eq_ok.2 hp0, ?_⟩
  rw [hi.lam00, hi.z0]
  exact lambda00_num h hx (z0_length h) hl

/-- Initialisation succeeds. -/
theorem initialize_ok (h : Setup colloc o um uo po m oc P) (hi : Inv po m P S)
    (hx : S.m.x0.length = um.nX) {S' : Solver} (hg : S.initGuess = (S', none)) :
    ∃ p0, S.m.pVal[0]? = some p0 ∧ p0.length = um.nPtv + um.nPgl ∧
      S.initialize = (S', .ok (um.lam00List po.pss S.m.x0 m.z0 p0)) := by
  obtain ⟨p0, hp0, hl, hc⟩ := computeLambda00_ok h hi hx
  refine ⟨p0, hp0, hl, ?_⟩
  unfold Solver.initialize
  rw [hc, hg]
  rfl

theorem lam00List_length (h : Setup colloc o um uo po m oc P) (x z p : List ℝ) :
    (um.lam00List po.pss x z p).length = (lam00Row po m.dims .lam ++ lam00Row po m.dims .lamN
      ++ lam00Row po m.dims .lamP).length := by
  obtain ⟨d1, -, d3, -, d5, d6, d7, d8, d9⟩ := h.dims
  unfold UserModel.lam00List lam00Row
  cases hps : po.pss with
  | stewart =>
    simp only [List.length_flatMap, List.length_map, List.length_range, List.length_append,
      Dims.famLen, length_blk, d7]
    have : ((List.range um.nSys).map fun s => m.dims.nF s)
        = (List.range um.nSys).map fun s => (um.Fmat s).nCols :=
      List.map_congr_left fun s hs => d8 hps s (List.mem_range.1 hs)
    rw [this]
    simp
  | step =>
    simp only [List.length_flatMap, List.length_map, List.length_range, List.length_append,
      Dims.famLen, length_blk, d7]
    have : ((List.range um.nSys).map fun s => m.dims.nC s)
        = (List.range um.nSys).map fun s => (um.cVec s).len :=
      List.map_congr_left fun s hs => d9 hps s (List.mem_range.1 hs)
    rw [this]
    simp [List.sum_map_add]

theorem p_eq (h : Setup colloc o um uo po m oc P) :
    P.p = pHead po m.dims ++ (lam00Row po m.dims .lam ++ lam00Row po m.dims .lamN
      ++ lam00Row po m.dims .lamP) ++ blk m.dims.nX .x0 := by
  rw [h.built.eq]; rfl

theorem pValues_length (h : Setup colloc o um uo po m oc P) (hi : Inv po m P S)
    (hx : S.m.x0.length = um.nX) {lam : List ℝ} (hl : lam.length
      = (lam00Row po m.dims .lam ++ lam00Row po m.dims .lamN ++ lam00Row po m.dims .lamP).length)
    (a b : ℝ) : (S.pValues lam a b).length = S.P.p.length := by
  rw [hi.p, p_eq h]
  unfold Solver.pValues pHead
  simp only [List.length_append, hl, hx, length_blk, h.dims.1, List.length_flatten,
    List.length_flatMap]
  have : S.m.pVal.map List.length = (List.range po.nStages).map fun _ => m.dims.nPtv + m.dims.nPgl := by
    apply List.ext_getElem
    · simp [hi.pLen]
    · intro i h1 h2
      simp only [List.getElem_map]
      exact hi.pRow _ (List.getElem_mem _)
  rw [this]
  simp

end

end Nosnoc
