import Verif.Spec.User
import Verif.Proofs.Assemble
/-
Helper lemmas: what a successful preprocessing of model and ocp yields.
-/
namespace Nosnoc

theorem orDefault_eq_ok {α : Type} {given : Option (List α)} {n : Nat} {dflt : α} {l : List α} :
    orDefault given n dflt = .ok l ↔
      (∀ g, given = some g → g.length = n) ∧ l = given.getD (List.replicate n dflt) := by
  unfold orDefault
  cases given with
  | none => constructor
            · intro h; cases h; simp
            · rintro ⟨_, rfl⟩; rfl
  | some g =>
    simp only [Option.some.injEq, forall_eq', Option.getD_some]
    split
    · rename_i hg
      constructor
      · intro h; cases h; exact ⟨hg, rfl⟩
      · rintro ⟨_, rfl⟩; rfl
    · rename_i hg
      constructor
      · intro h; cases h
      · rintro ⟨h, _⟩; exact absurd h hg

theorem orDefaultE_eq_ok {α : Type} {given : Option (List α)} {n : Nat} {dflt : α} {l : List α} :
    orDefaultE given n dflt = .ok l ↔
      (∀ g, given = some g → g.length = n) ∧ l = given.getD (List.replicate n dflt) := by
  unfold orDefaultE
  cases given with
  | none => constructor
            · intro h; cases h; simp
            · rintro ⟨_, rfl⟩; rfl
  | some g =>
    simp only [Option.some.injEq, forall_eq', Option.getD_some]
    split
    · rename_i hg
      constructor
      · intro h; cases h; exact ⟨hg, rfl⟩
      · rintro ⟨_, rfl⟩; rfl
    · rename_i hg
      constructor
      · intro h; cases h
      · rintro ⟨h, _⟩; exact absurd h hg

theorem orDefault_length {α : Type} {given : Option (List α)} {n : Nat} {dflt : α} {l : List α}
    (h : orDefault given n dflt = .ok l) : l.length = n := by
  rw [orDefault_eq_ok] at h
  cases given with
  | none => simp [h.2]
  | some g => simp [h.2, h.1 g rfl]

theorem orDefaultE_length {α : Type} {given : Option (List α)} {n : Nat} {dflt : α} {l : List α}
    (h : orDefaultE given n dflt = .ok l) : l.length = n := by
  rw [orDefaultE_eq_ok] at h
  cases given with
  | none => simp [h.2]
  | some g => simp [h.2, h.1 g rfl]

theorem optGet_eq_ok {α : Type} {l : Option (List α)} {i : Nat} {a : α} :
    optGet l i = .ok a ↔ ∃ l', l = some l' ∧ l'[i]? = some a := by
  unfold optGet
  cases l with
  | none => simp
  | some l => cases h : l[i]? <;> simp [h]

section
variable {um : UserModel} {o : PreOpts} {m : PreModel}

/-- The dimensions computed by the preprocessing. -/
def dimsOf (um : UserModel) (nC nF : List Nat) : Dims :=
  { nX := um.nX, nU := um.nU, nZ := um.nZ, nSys := um.nSys, nPtv := um.nPtv, nPgl := um.nPgl,
    nV := um.nV, nC := fun i => nC.getD i 0, nF := fun i => nF.getD i 0 }

/-- What a successful `preprocess_model` computed. -/
structure Pre (um : UserModel) (o : PreOpts) (m : PreModel) (nC nF : List Nat) (g up : List Vec)
    (f0 : Vec) (acc : DcsAcc) : Prop where
  z0 : orDefault um.z0 um.nZ 0 = .ok m.z0
  lbz : orDefault um.lbz um.nZ ⊥ = .ok m.lbz
  ubz : orDefault um.ubz um.nZ ⊤ = .ok m.ubz
  hnC : um.nCsys = .ok nC
  hnF : um.nFsys o.pss = .ok nF
  pVal : um.pValCtrl o.nStages = .ok m.pVal
  x0 : m.x0 = um.x0
  dims : m.dims = dimsOf um nC nF
  hg : um.gStewartVecs m.dims o.pss = .ok g
  hup : um.upsilon (um.alphaVars m.dims o.pss) o.pss = .ok up
  hf0 : um.fx0 m.dims nC (um.alphaVars m.dims o.pss) = .ok f0
  stewart : o.pss = .stewart →
    (List.range um.nSys).foldlM (stewartBody um m.dims g) ⟨f0, [], [], []⟩ = .ok acc
  step : o.pss = .step → (List.range um.nSys).foldlM
    (stepBody um m.dims up (um.alphaVars m.dims o.pss)) ⟨f0, [], [], []⟩ = .ok acc
  zAll : m.zAll = um.zAll m.dims o.pss
  fx : m.fxFun = ⟨[m.dims.mX, m.zAll, m.dims.mU, m.dims.mP, m.dims.mV], acc.fx⟩
  sw : m.gzSwitchingFun = ⟨[m.dims.mX, m.zAll, m.dims.mU, m.dims.mP], acc.gSwitching⟩
  gz : m.gzAllFun = ⟨[m.dims.mX, m.zAll, m.dims.mU, m.dims.mP],
    acc.gSwitching ++ acc.gConvex ++ (List.range um.gz.len).map fun i env =>
      um.gz.entry i (m.dims.mX.map env) (m.dims.mZ.map env) (m.dims.mU.map env)
        (m.dims.mP.map env)⟩
  lam00 : m.lambda00Fun = ⟨[m.dims.mX, m.dims.mZ, m.dims.mP], acc.lambda00⟩
  t : m.tFun = um.tVar.map fun t => ⟨[m.dims.mX], [fun env => t (m.dims.mX.map env)]⟩
  tCheck : um.tVar.isSome ∨ o.timeFreezing = false
  gList : m.gStewartList = g

theorem preprocess_pre (h : um.preprocess o = .ok m) :
    ∃ nC nF g up f0 acc, Pre um o m nC nF g up f0 acc := by
  unfold UserModel.preprocess at h
  cases hp : o.pss
  all_goals
    simp only [bind_eq_ok, hp] at h
    obtain ⟨z0, hz0, lbz, hlbz, ubz, hubz, nC, hnC, nF, hnF, pv, hpv, g, hg, up, hup, f0, hf0,
      acc, hacc, _, hchk, h⟩ := h
    rw [check_eq_ok] at hchk
    injection h with h
    subst h
    refine ⟨nC, nF, g, up, f0, acc, ⟨hz0, hlbz, hubz, hnC, by rw [hp]; exact hnF, hpv, rfl, rfl,
      by rw [hp]; exact hg, by rw [hp]; exact hup, by rw [hp]; exact hf0,
      ?_, ?_, by rw [hp], rfl, rfl, rfl, rfl, rfl, hchk, rfl⟩⟩
  · intro _; exact hacc
  · intro h; rw [hp] at h; cases h
  · intro h; rw [hp] at h; cases h
  · intro _; rw [hp]; exact hacc

theorem fx0_length {d : Dims} {nC : List Nat} {al : List (List Sym)} {f0 : Vec}
    (h : um.fx0 d nC al = .ok f0) : f0.length = um.nX := by
  unfold UserModel.fx0 at h
  split at h
  · simp only [bind_eq_ok] at h
    obtain ⟨_, _, h⟩ := h
    cases h; simp
  · cases h; simp

theorem UMat.mul_eq_ok {d : Dims} {F : UMat} {v r : Vec} :
    F.mul d v = .ok r ↔ F.nCols = v.length ∧ r = vec d.nX (fun row env =>
      ∑ col ∈ Finset.range F.nCols, F.expr d row col env * at' v col env) := by
  have key : ((List.range d.nX).map fun row env =>
      ((List.range F.nCols).map fun col => F.expr d row col env * at' v col env).sum)
      = vec d.nX (fun row env =>
      ∑ col ∈ Finset.range F.nCols, F.expr d row col env * at' v col env) := by
    unfold vec
    congr 1
  unfold UMat.mul
  rw [key]
  split
  · rename_i hc
    constructor
    · intro h; cases h; exact ⟨hc, rfl⟩
    · rintro ⟨_, rfl⟩; rfl
  · rename_i hc
    constructor
    · intro h; cases h
    · rintro ⟨h, _⟩; exact absurd h hc

theorem stageVars_get {d : Dims} {pss : PssMode} {f : Fam2} {s : Nat} {l : List Sym} :
    optGet (some (d.stageVars pss f)) s = .ok l ↔
      s < d.nSys ∧ l = blk (d.famLen pss f s) (.mAlg f s) := by
  rw [optGet_eq_ok]
  simp only [Option.some.injEq, exists_eq_left', Dims.stageVars]
  constructor
  · intro h
    obtain ⟨hlt, h⟩ := List.getElem?_eq_some_iff.1 h
    simp at hlt h
    exact ⟨hlt, h.symm⟩
  · rintro ⟨h, rfl⟩
    simp [h]

/-- Stewart mode: the accumulated expressions in closed form. -/
noncomputable def stewartAcc (um : UserModel) (d : Dims) (g : List Vec) (f0 : Vec) (K : Nat) :
    DcsAcc where
  fx := vec d.nX fun row env => at' f0 row env + ∑ s ∈ Finset.range K,
    ∑ i ∈ Finset.range (d.nF s), (um.Fmat s).expr d row i env * env (.mAlg .theta s i)
  gSwitching := (List.range K).flatMap fun s => vec (d.nF s) fun i env =>
    at' (g.getD s []) i env - env (.mAlg .lam s i) + env (.mAlg .mu s 0)
  gConvex := (List.range K).map fun s env =>
    (∑ i ∈ Finset.range (d.nF s), env (.mAlg .theta s i)) - 1
  lambda00 := (List.range K).flatMap fun s => stewartLambda00 (g.getD s [])

/-- Facts checked for system `s` in Stewart mode. -/
structure StewartSys (um : UserModel) (d : Dims) (g : List Vec) (s : Nat) : Prop where
  F : ∃ Fs, um.F = some Fs ∧ Fs[s]? = some (um.Fmat s)
  cols : (um.Fmat s).nCols = d.nF s
  gGet : g[s]? = some (g.getD s [])
  gLen : (g.getD s []).length = d.nF s

theorem stewartFold {d : Dims} {g : List Vec} {f0 : Vec} (hf0 : f0.length = d.nX) {K : Nat}
    {acc : DcsAcc} :
    (List.range K).foldlM (stewartBody um d g) ⟨f0, [], [], []⟩ = .ok acc →
      (∀ s < K, StewartSys um d g s) ∧ acc = stewartAcc um d g f0 K := by
  induction K generalizing acc with
  | zero =>
    intro h
    cases h
    refine ⟨by simp, ?_⟩
    simp only [stewartAcc, List.range_zero, List.flatMap_nil, List.map_nil, Finset.range_zero,
      Finset.sum_empty, add_zero]
    rw [← vec_eta hf0]
  | succ K ih =>
    intro h
    rw [List.range_succ, List.foldlM_append, bind_eq_ok] at h
    obtain ⟨acc1, h1, h2⟩ := h
    obtain ⟨hs, rfl⟩ := ih h1
    rw [List.foldlM_cons, bind_eq_ok] at h2
    obtain ⟨acc2, h2, h3⟩ := h2
    cases h3
    unfold stewartBody at h2
    simp only [bind_eq_ok, stageVars_get] at h2
    obtain ⟨F, hF, th, ⟨hK, rfl⟩, la, ⟨_, rfl⟩, mu, ⟨_, rfl⟩, gi, hgi, Fth, hFth, _, hchk, h2⟩ := h2
    rw [check_eq_ok] at hchk
    rw [UMat.mul_eq_ok] at hFth
    obtain ⟨hcols, rfl⟩ := hFth
    rw [optGet_eq_ok] at hF hgi
    obtain ⟨Fs, hFs, hF⟩ := hF
    obtain ⟨_, hg', hgi⟩ := hgi
    cases hg'
    have hFK : um.Fmat K = F := by
      simp [UserModel.Fmat, hFs, hF]
    have hgK : g.getD K [] = gi := by simp [hgi]
    simp only [Dims.famLen, length_vars, length_blk] at hcols hchk
    cases h2
    refine ⟨?_, ?_⟩
    · intro s hsK
      rcases Nat.lt_succ_iff_lt_or_eq.1 hsK with h | rfl
      · exact hs s h
      · exact ⟨⟨Fs, hFs, by rw [hFK]; exact hF⟩, by rw [hFK]; exact hcols, by rw [hgK]; exact hgi,
          by rw [hgK]; exact hchk⟩
    · simp only [stewartAcc, List.range_succ, List.flatMap_append, List.map_append,
        List.flatMap_singleton, List.map_cons, List.map_nil, hgK, Dims.famLen]
      have e1 : gi = vec (d.nF K) (at' gi) := vec_eta hchk
      congr 1
      · rw [vadd_vec]
        apply vec_congr
        intro row _
        funext env
        rw [Finset.sum_range_succ, ← add_assoc, hcols]
        congr 1
        apply Finset.sum_congr rfl
        intro i hi
        rw [vars_blk, at'_vec _ (Finset.mem_range.1 hi), hFK]
        rfl
      · congr 1
        conv_lhs => rw [e1, vars_blk, vars_blk, vsub_vec]
        unfold vec
        rw [List.map_map]
        apply List.map_congr_left
        intro i hi
        funext env
        simp only [Function.comp_def, List.range_one, List.map_cons, List.map_nil, at', var,
          List.getD_cons_zero]
      · congr 2
        funext env
        rw [evalVec_vars]
        simp only [blk, List.map_map, Function.comp_def]
        rw [sum_map_range]


theorem upsilonRow_eq (S : SMat) (al : Vec) (j : Nat) (env : Env) :
    upsilonRow S al j env = regionWeight S j (fun k => at' al k env) := by
  unfold upsilonRow regionWeight
  generalize S.cols = n
  induction n with
  | zero => simp
  | succ n ih =>
    rw [List.range_succ, List.foldl_append, ih, Finset.range_add_one, Finset.filter_insert]
    simp only [List.foldl_cons, List.foldl_nil]
    split
    · rw [Finset.prod_insert (by simp), mul_comm]
      congr 1
      ring
    · rfl

/-- Step mode: the accumulated expressions in closed form. -/
noncomputable def stepAcc (um : UserModel) (d : Dims) (al : List (List Sym)) (f0 : Vec) (K : Nat) :
    DcsAcc where
  fx := vec d.nX fun row env => at' f0 row env +
    if um.F.isSome then ∑ s ∈ Finset.range K,
      ∑ i ∈ Finset.range (um.Fmat s).nCols, (um.Fmat s).expr d row i env *
        regionWeight (um.Smat s) i (fun k => at' (vars (al.getD s [])) k env)
    else 0
  gSwitching := (List.range K).flatMap fun s => vec (d.nC s) fun i env =>
    (um.cVec s).expr d i env - env (.mAlg .lamP s i) + env (.mAlg .lamN s i)
  gConvex := []
  lambda00 := (List.range K).flatMap fun s =>
    vec (d.nC s) (fun i env => -(min ((um.cVec s).expr d i env) 0)) ++
    vec (d.nC s) (fun i env => max ((um.cVec s).expr d i env) 0)

/-- Facts checked for system `s` in Step mode. -/
structure StepSys (um : UserModel) (d : Dims) (al : List (List Sym)) (s : Nat) : Prop where
  c : ∃ cs, um.c = some cs ∧ cs[s]? = some (um.cVec s)
  cLen : (um.cVec s).len = d.nC s
  al : s < al.length
  F : ∀ Fs, um.F = some Fs → Fs[s]? = some (um.Fmat s) ∧ (um.Fmat s).nCols = (um.Smat s).rows

/-- The columns of `upsilon`. -/
def UpsOk (um : UserModel) (al : List (List Sym)) (up : List Vec) : Prop :=
  um.F.isSome → ∀ s < um.nSys, up[s]? = some (vec (um.Smat s).rows
    (upsilonRow (um.Smat s) (vars (al.getD s []))))

theorem upsilon_ok {al : List (List Sym)} {up : List Vec} (h : um.upsilon al .step = .ok up) :
    UpsOk um al up := by
  intro hF s hs
  unfold UserModel.upsilon at h
  rw [if_pos ⟨rfl, hF⟩] at h
  simp only [bind_eq_ok] at h
  obtain ⟨cols, hc, _, _, h⟩ := h
  cases h
  rw [mapM_eq_ok] at hc
  have hlen := hc.length_eq
  simp only [List.length_range] at hlen
  have h2 := (List.forall₂_iff_get.1 hc).2 s (by simpa using hs) (by omega)
  simp only [List.get_eq_getElem, List.getElem_range, bind_eq_ok] at h2
  obtain ⟨S, hS, a, ha, h2⟩ := h2
  rw [optGet_eq_ok] at hS ha
  obtain ⟨Ss, hSs, hS⟩ := hS
  obtain ⟨_, h', ha⟩ := ha
  cases h'
  unfold upsilonCol at h2
  split at h2
  · cases h2
  · have h3 : um.Smat s = S := by simp [UserModel.Smat, hSs, hS]
    have h4 : al.getD s [] = a := by simp [ha]
    rw [List.getElem?_eq_getElem (by omega), h3, h4]
    injection h2 with h2
    rw [← h2]
    rfl

theorem uvec_eq (d : Dims) (c : UVec) : c.vec d = vec c.len (c.expr d) := rfl

theorem stepFold {d : Dims} {up : List Vec} {al : List (List Sym)} {f0 : Vec}
    (hup : UpsOk um al up) (hf0 : f0.length = d.nX) {K : Nat} (hK : K ≤ um.nSys)
    {acc : DcsAcc} :
    (List.range K).foldlM (stepBody um d up al) ⟨f0, [], [], []⟩ = .ok acc →
      (∀ s < K, StepSys um d al s) ∧ acc = stepAcc um d al f0 K := by
  induction K generalizing acc with
  | zero =>
    intro h
    cases h
    refine ⟨by simp, ?_⟩
    simp only [stepAcc, List.range_zero, List.flatMap_nil, Finset.range_zero,
      Finset.sum_empty, ite_self, add_zero]
    rw [← vec_eta hf0]
  | succ K ih =>
    intro h
    rw [List.range_succ, List.foldlM_append, bind_eq_ok] at h
    obtain ⟨acc1, h1, h2⟩ := h
    obtain ⟨hs, rfl⟩ := ih (by omega) h1
    rw [List.foldlM_cons, bind_eq_ok] at h2
    obtain ⟨acc2, h2, h3⟩ := h2
    cases h3
    unfold stepBody at h2
    simp only [bind_eq_ok, stageVars_get] at h2
    obtain ⟨fx, hfx, al', hal, c, hc, lp, ⟨hKd, rfl⟩, ln, ⟨_, rfl⟩, _, hchk, h2⟩ := h2
    rw [check_eq_ok] at hchk
    rw [optGet_eq_ok] at hal hc
    obtain ⟨cs, hcs, hc⟩ := hc
    obtain ⟨_, h', hal⟩ := hal
    cases h'
    have hcK : um.cVec K = c := by simp [UserModel.cVec, hcs, hc]
    simp only [length_blk, Dims.famLen] at hchk
    cases h2
    have halK : K < al.length := (List.getElem?_eq_some_iff.1 hal).1
    have hF : (∀ Fs, um.F = some Fs → Fs[K]? = some (um.Fmat K) ∧
        (um.Fmat K).nCols = (um.Smat K).rows) ∧ fx = (stepAcc um d al f0 (K + 1)).fx := by
      unfold stepRhs at hfx
      cases hFs : um.F with
      | none =>
        rw [hFs] at hfx
        cases hfx
        refine ⟨by simp, ?_⟩
        simp [stepAcc, hFs]
      | some Fs =>
        simp only [hFs, bind_eq_ok] at hfx
        obtain ⟨F, hF, u, hu, Fu, hFu, hfx⟩ := hfx
        cases hfx
        rw [optGet_eq_ok] at hF hu
        obtain ⟨_, h', hF⟩ := hF
        cases h'
        obtain ⟨_, h', hu⟩ := hu
        cases h'
        rw [hup (by simp [hFs]) K (by omega)] at hu
        cases hu
        rw [UMat.mul_eq_ok] at hFu
        obtain ⟨hcols, rfl⟩ := hFu
        have hFK : um.Fmat K = F := by simp [UserModel.Fmat, hFs, hF]
        rw [length_vec] at hcols
        refine ⟨?_, ?_⟩
        · intro Fs' h'; cases h'
          rw [hFK]; exact ⟨hF, hcols⟩
        · simp only [stepAcc, hFs, Option.isSome_some, if_true]
          rw [vadd_vec]
          apply vec_congr
          intro row _
          funext env
          rw [Finset.sum_range_succ, ← add_assoc, hFK]
          congr 1
          apply Finset.sum_congr rfl
          intro i hi
          rw [at'_vec _ (by rw [← hcols]; exact Finset.mem_range.1 hi), upsilonRow_eq]
    refine ⟨?_, ?_⟩
    · intro s hsK
      rcases Nat.lt_succ_iff_lt_or_eq.1 hsK with h | rfl
      · exact hs s h
      · exact ⟨⟨cs, hcs, by rw [hcK]; exact hc⟩, by rw [hcK]; exact hchk, halK, hF.1⟩
    · rw [hF.2]
      simp only [stepAcc, List.range_succ, List.flatMap_append,
        List.flatMap_singleton, hcK, Dims.famLen]
      congr 1
      · congr 1
        rw [uvec_eq, hchk, vars_blk, vars_blk, vsub_vec, vadd_vec]
        rfl
      · rw [List.append_assoc]
        congr 1
        rw [uvec_eq, hchk]
        unfold vec
        rw [List.map_map, List.map_map]
        rfl

end
end Nosnoc
