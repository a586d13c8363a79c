import Verif.Proofs.Pre
import Verif.Spec.UserDisc
/-
Helper lemmas: the model functions applied to the discretised quantities are the user's
expressions of the stage's variables.
-/
namespace Nosnoc

theorem evalVec_endState (o : PreOpts) (d : Dims) (k e : Nat) (env : Env) :
    evalVec (endState o d k e) env = xEndVal o d k e env := by
  simp [endState, evalVec_vars, blk, xEndVal]
theorem evalVec_ctrlU (d : Dims) (k : Nat) (env : Env) :
    evalVec (ctrlU d k) env = uVal d k env := by simp [ctrlU, blk, uVal]
theorem evalVec_ctrlP (d : Dims) (k : Nat) (env : Env) :
    evalVec (ctrlP d k) env = pVal d k env := by simp [ctrlP, blk, pVal]
theorem evalVec_globV (d : Dims) (env : Env) :
    evalVec (globV d) env = vVal d env := by simp [globV, Dims.mV, blk, vVal]

theorem nodup_blk {n : Nat} {f : Nat → Sym} (hf : ∀ i j, f i = f j → i = j) : (blk n f).Nodup := by
  unfold blk
  exact List.Nodup.map (fun i j h => hf i j h) List.nodup_range

/-- A symbol standing for an algebraic variable of the model. -/
def isAlg : Sym → Bool
  | .mAlg _ _ _ => true
  | .mZ _ => true
  | _ => false

section
variable {um : UserModel} {o : PreOpts} {m : PreModel}

theorem mem_stageVars {d : Dims} {pss : PssMode} {f : Fam2} {t : Sym} :
    t ∈ (d.stageVars pss f).flatten ↔ ∃ s < d.nSys, ∃ i < d.famLen pss f s, t = .mAlg f s i := by
  simp only [Dims.stageVars, List.mem_flatten, List.mem_map, List.mem_range, blk]
  constructor
  · rintro ⟨_, ⟨s, hs, rfl⟩, ht⟩
    simp only [List.mem_map, List.mem_range] at ht
    obtain ⟨i, hi, rfl⟩ := ht
    exact ⟨s, hs, i, hi, rfl⟩
  · rintro ⟨s, hs, i, hi, rfl⟩
    exact ⟨_, ⟨s, hs, rfl⟩, by simp [hi]⟩

theorem mem_alphaVars {d : Dims} {pss : PssMode} {t : Sym}
    (h : t ∈ (um.alphaVars d pss).flatten) : ∃ s i, t = .mAlg .alpha s i := by
  unfold UserModel.alphaVars at h
  cases ha : um.alpha with
  | none =>
    rw [ha] at h
    obtain ⟨s, _, i, _, rfl⟩ := mem_stageVars.1 h
    exact ⟨s, i, rfl⟩
  | some a =>
    rw [ha] at h
    simp only [List.mem_flatten, List.mem_map, blk] at h
    obtain ⟨_, ⟨⟨n, s⟩, _, rfl⟩, ht⟩ := h
    simp only [List.mem_map] at ht
    obtain ⟨i, _, rfl⟩ := ht
    exact ⟨s, i, rfl⟩

theorem nodup_flatten_blocks {α : Type} {l : List α} {len : α → Nat} {idx : α → Nat} {f : Fam2}
    (h : (l.map idx).Nodup) :
    ((l.map fun a => blk (len a) (.mAlg f (idx a))).flatten).Nodup := by
  rw [List.nodup_flatten]
  constructor
  · intro b hb
    obtain ⟨a, _, rfl⟩ := List.mem_map.1 hb
    exact nodup_blk fun i j hij => by cases hij; rfl
  · rw [List.pairwise_map]
    rw [List.Nodup, List.pairwise_map] at h
    refine h.imp ?_
    intro a b hab t h1 h2
    simp only [blk, List.mem_map] at h1 h2
    obtain ⟨i, _, rfl⟩ := h1
    obtain ⟨j, _, h2⟩ := h2
    injection h2 with _ h3 _
    exact hab h3.symm

theorem nodup_stageVars {d : Dims} {pss : PssMode} {f : Fam2} :
    (d.stageVars pss f).flatten.Nodup := by
  unfold Dims.stageVars
  exact nodup_flatten_blocks (idx := id) (by simpa using List.nodup_range)

theorem nodup_alphaVars {d : Dims} {pss : PssMode} : (um.alphaVars d pss).flatten.Nodup := by
  unfold UserModel.alphaVars
  cases um.alpha with
  | none => exact nodup_stageVars
  | some a =>
    refine nodup_flatten_blocks (l := a.zipIdx) (len := Prod.fst) (idx := Prod.snd) ?_
    rw [List.zipIdx_map_snd]
    exact List.nodup_range'

theorem nodup_zAll {d : Dims} {pss : PssMode} : (um.zAll d pss).Nodup := by
  unfold UserModel.zAll
  have hb : d.mZ.Nodup := nodup_blk fun i j h => by cases h; rfl
  have key : ∀ t, t ∈ d.mZ → ∃ i, t = .mZ i := by
    intro t ht; simp only [Dims.mZ, blk, List.mem_map] at ht
    obtain ⟨i, _, rfl⟩ := ht; exact ⟨i, rfl⟩
  simp only [List.nodup_append, List.mem_append]
  refine ⟨⟨⟨⟨⟨⟨nodup_stageVars, nodup_stageVars, ?_⟩, nodup_stageVars, ?_⟩, nodup_alphaVars, ?_⟩,
    nodup_stageVars, ?_⟩, nodup_stageVars, ?_⟩, hb, ?_⟩
  all_goals
    intro a ha b hb
    rintro rfl
  · obtain ⟨_, _, _, _, rfl⟩ := mem_stageVars.1 ha
    obtain ⟨_, _, _, _, h⟩ := mem_stageVars.1 hb; cases h
  · obtain ⟨_, _, _, _, rfl⟩ := mem_stageVars.1 hb
    rcases ha with h | h <;> obtain ⟨_, _, _, _, h⟩ := mem_stageVars.1 h <;> cases h
  · obtain ⟨_, _, rfl⟩ := mem_alphaVars hb
    rcases ha with (h | h) | h <;> obtain ⟨_, _, _, _, h⟩ := mem_stageVars.1 h <;> cases h
  · obtain ⟨_, _, _, _, rfl⟩ := mem_stageVars.1 hb
    rcases ha with ((h | h) | h) | h
    · obtain ⟨_, _, _, _, h⟩ := mem_stageVars.1 h; cases h
    · obtain ⟨_, _, _, _, h⟩ := mem_stageVars.1 h; cases h
    · obtain ⟨_, _, _, _, h⟩ := mem_stageVars.1 h; cases h
    · obtain ⟨_, _, h⟩ := mem_alphaVars h; cases h
  · obtain ⟨_, _, _, _, rfl⟩ := mem_stageVars.1 hb
    rcases ha with (((h | h) | h) | h) | h
    · obtain ⟨_, _, _, _, h⟩ := mem_stageVars.1 h; cases h
    · obtain ⟨_, _, _, _, h⟩ := mem_stageVars.1 h; cases h
    · obtain ⟨_, _, _, _, h⟩ := mem_stageVars.1 h; cases h
    · obtain ⟨_, _, h⟩ := mem_alphaVars h; cases h
    · obtain ⟨_, _, _, _, h⟩ := mem_stageVars.1 h; cases h
  · obtain ⟨_, rfl⟩ := key _ hb
    rcases ha with ((((h | h) | h) | h) | h) | h
    · obtain ⟨_, _, _, _, h⟩ := mem_stageVars.1 h; cases h
    · obtain ⟨_, _, _, _, h⟩ := mem_stageVars.1 h; cases h
    · obtain ⟨_, _, _, _, h⟩ := mem_stageVars.1 h; cases h
    · obtain ⟨_, _, h⟩ := mem_alphaVars h; cases h
    · obtain ⟨_, _, _, _, h⟩ := mem_stageVars.1 h; cases h
    · obtain ⟨_, _, _, _, h⟩ := mem_stageVars.1 h; cases h

theorem mem_zAll {d : Dims} {pss : PssMode} {t : Sym} (h : t ∈ um.zAll d pss) :
    isAlg t = true := by
  simp only [UserModel.zAll, List.mem_append] at h
  rcases h with (((((h | h) | h) | h) | h) | h) | h
  · obtain ⟨_, _, _, _, rfl⟩ := mem_stageVars.1 h; rfl
  · obtain ⟨_, _, _, _, rfl⟩ := mem_stageVars.1 h; rfl
  · obtain ⟨_, _, _, _, rfl⟩ := mem_stageVars.1 h; rfl
  · obtain ⟨_, _, rfl⟩ := mem_alphaVars h; rfl
  · obtain ⟨_, _, _, _, rfl⟩ := mem_stageVars.1 h; rfl
  · obtain ⟨_, _, _, _, rfl⟩ := mem_stageVars.1 h; rfl
  · simp only [Dims.mZ, blk, List.mem_map] at h; obtain ⟨_, _, rfl⟩ := h; rfl

/-- The kind of a model symbol, to separate the inputs of the functions. -/
def kindOf : Sym → Nat
  | .mX _ => 0
  | .mAlg _ _ _ => 1
  | .mZ _ => 1
  | .mU _ => 2
  | .mPtv _ => 3
  | .mPgl _ => 3
  | .vGlob _ => 4
  | _ => 5

theorem kind_mX {d : Dims} {t : Sym} (h : t ∈ d.mX) : kindOf t = 0 := by
  simp only [Dims.mX, blk, List.mem_map] at h; obtain ⟨_, _, rfl⟩ := h; rfl
theorem kind_mU {d : Dims} {t : Sym} (h : t ∈ d.mU) : kindOf t = 2 := by
  simp only [Dims.mU, blk, List.mem_map] at h; obtain ⟨_, _, rfl⟩ := h; rfl
theorem kind_mP {d : Dims} {t : Sym} (h : t ∈ d.mP) : kindOf t = 3 := by
  simp only [Dims.mP, blk, List.mem_append, List.mem_map] at h
  rcases h with ⟨_, _, rfl⟩ | ⟨_, _, rfl⟩ <;> rfl
theorem kind_mV {d : Dims} {t : Sym} (h : t ∈ d.mV) : kindOf t = 4 := by
  simp only [Dims.mV, blk, List.mem_map] at h; obtain ⟨_, _, rfl⟩ := h; rfl
theorem kind_zAll {d : Dims} {pss : PssMode} {t : Sym} (h : t ∈ um.zAll d pss) : kindOf t = 1 := by
  have := mem_zAll h
  cases t <;> simp_all [isAlg, kindOf]

theorem nodup_mX {d : Dims} : d.mX.Nodup := nodup_blk fun i j h => by cases h; rfl
theorem nodup_mU {d : Dims} : d.mU.Nodup := nodup_blk fun i j h => by cases h; rfl
theorem nodup_mZ {d : Dims} : d.mZ.Nodup := nodup_blk fun i j h => by cases h; rfl
theorem nodup_mV {d : Dims} : d.mV.Nodup := nodup_blk fun i j h => by cases h; rfl
theorem nodup_mP {d : Dims} : d.mP.Nodup := by
  unfold Dims.mP
  rw [List.nodup_append]
  refine ⟨nodup_blk fun i j h => by cases h; rfl, nodup_blk fun i j h => by cases h; rfl, ?_⟩
  intro a ha b hb
  simp only [blk, List.mem_map] at ha hb
  obtain ⟨_, _, rfl⟩ := ha
  obtain ⟨_, _, rfl⟩ := hb
  simp

/-- Lists of pairwise different kinds, each without duplicates. -/
theorem nodup_kinds {ls : List (List Sym)} {ks : List Nat} (hk : ks.Nodup)
    (h : List.Forall₂ (fun l k => l.Nodup ∧ ∀ t ∈ l, kindOf t = k) ls ks) : ls.flatten.Nodup := by
  rw [List.nodup_flatten]
  constructor
  · intro l hl
    induction h with
    | nil => simp at hl
    | cons h1 h2 ih =>
      rcases List.mem_cons.1 hl with rfl | hl
      · exact h1.1
      · exact ih (List.nodup_cons.1 hk).2 hl
  · induction h with
    | nil => simp
    | @cons a b l₁ l₂ h1 h2 ih =>
      rw [List.pairwise_cons]
      refine ⟨?_, ih (List.nodup_cons.1 hk).2⟩
      intro l hl t ht1 ht2
      have hb := (List.nodup_cons.1 hk).1
      have : ∃ k ∈ l₂, ∀ t ∈ l, kindOf t = k := by
        clear ih h1 ht1 ht2 hb hk
        induction h2 with
        | nil => simp at hl
        | cons h3 h4 ih' =>
          rcases List.mem_cons.1 hl with rfl | hl
          · exact ⟨_, by simp, h3.2⟩
          · obtain ⟨k, hk, h⟩ := ih' hl
            exact ⟨k, by simp [hk], h⟩
      obtain ⟨k, hk', h⟩ := this
      have e1 := h1.2 t ht1
      have e2 := h t ht2
      exact hb (by rw [← e1, e2]; exact hk')

/-- Matching of the model's stage variables with the element's. -/
theorem row_match {d : Dims} {k e j : Nat} {f : Fam2} {env env' : Env}
    (h : ((d.stageVars o.pss f).flatten).map env' = (rowSyms o d k e f j).map env) :
    ∀ s < d.nSys, ∀ i < d.famLen o.pss f s, env' (.mAlg f s i) = env (.st2 f k e j s i) := by
  have h1 : rowSyms o d k e f j = ((d.stageVars o.pss f).flatten).map
      (fun t => match t with | .mAlg f s i => .st2 f k e j s i | t => t) := by
    simp only [rowSyms, Dims.stageVars, List.map_flatten, List.map_map, blk, List.flatMap_def]
    congr 1
    apply List.map_congr_left
    intro s _
    simp only [Function.comp_def, List.map_map]
  rw [h1, List.map_map, List.map_inj_left] at h
  intro s hs i hi
  have := h (.mAlg f s i) (mem_stageVars.2 ⟨s, hs, i, hi, rfl⟩)
  simpa using this

theorem length_stageVars (d : Dims) (k e j : Nat) (f : Fam2) :
    ((d.stageVars o.pss f).flatten).length = (rowSyms o d k e f j).length := by
  simp [rowSyms, Dims.stageVars, List.length_flatMap, List.length_flatten, Function.comp_def]

/-- The values of the model's algebraic variables after binding. -/
structure ZBind (um : UserModel) (o : PreOpts) (d : Dims) (k e j jl : Nat) (env env' : Env) :
    Prop where
  theta : ∀ s < d.nSys, ∀ i < d.famLen o.pss .theta s,
    env' (.mAlg .theta s i) = env (.st2 .theta k e j s i)
  lam : ∀ s < d.nSys, ∀ i < d.famLen o.pss .lam s,
    env' (.mAlg .lam s i) = env (.st2 .lam k e jl s i)
  mu : ∀ s < d.nSys, ∀ i < d.famLen o.pss .mu s,
    env' (.mAlg .mu s i) = env (.st2 .mu k e jl s i)
  alpha : (um.alphaVars d o.pss).flatten.map env' = (rowSyms o d k e .alpha j).map env
  lamN : ∀ s < d.nSys, ∀ i < d.famLen o.pss .lamN s,
    env' (.mAlg .lamN s i) = env (.st2 .lamN k e jl s i)
  lamP : ∀ s < d.nSys, ∀ i < d.famLen o.pss .lamP s,
    env' (.mAlg .lamP s i) = env (.st2 .lamP k e jl s i)
  z : d.mZ.map env' = zVal d k e j env

theorem zBind {d : Dims} {k e j jl : Nat} {env env' : Env}
    (hl : (um.zAll d o.pss).length = nZall o d)
    (h : (um.zAll d o.pss).map env' = (zSyms o d k e j jl).map env) :
    ZBind um o d k e j jl env env' := by
  have hlen : (um.alphaVars d o.pss).flatten.length = (rowSyms o d k e .alpha j).length := by
    rw [← length_zSyms o d k e j jl] at hl
    simp only [UserModel.zAll, zSyms, List.length_append, length_stageVars (o := o) d k e j,
      length_rowSyms o d k e _ jl, length_rowSyms o d k e _ j, Dims.mZ, length_blk] at hl ⊢
    omega
  unfold UserModel.zAll zSyms at h
  simp only [List.map_append] at h
  have L : ∀ f j, ((d.stageVars o.pss f).flatten.map env').length
      = ((rowSyms o d k e f j).map env).length := by
    intro f j; rw [List.length_map, List.length_map]; exact length_stageVars (o := o) d k e j f
  have LA : ((um.alphaVars d o.pss).flatten.map env').length
      = ((rowSyms o d k e .alpha j).map env).length := by
    rw [List.length_map, List.length_map]; exact hlen
  obtain ⟨h, hz⟩ := List.append_inj' h (by simp [Dims.mZ])
  obtain ⟨h, h6⟩ := List.append_inj' h (L .lamP jl)
  obtain ⟨h, h5⟩ := List.append_inj' h (L .lamN jl)
  obtain ⟨h, h4⟩ := List.append_inj' h LA
  obtain ⟨h, h3⟩ := List.append_inj' h (L .mu jl)
  obtain ⟨h1, h2⟩ := List.append_inj' h (L .lam jl)
  exact ⟨row_match h1, row_match h2, row_match h3, h4, row_match h5, row_match h6, by
    rw [hz]; simp [zVal, blk]⟩


variable {nC nF : List Nat} {g up : List Vec} {f0 : Vec} {acc : DcsAcc}

/-! ### Indicator functions -/

theorem gStewart_at (h : Pre um o m nC nF g up f0 acc) (hp : o.pss = .stewart) {s i : Nat}
    (hs : s < um.nSys) (hsys : StewartSys um m.dims g s) (hi : i < m.dims.nF s) (env : Env) :
    at' (g.getD s []) i env = um.gVal s i (m.dims.mX.map env) (m.dims.mZ.map env)
      (m.dims.mP.map env) := by
  have hg := h.hg
  rw [hp] at hg
  unfold UserModel.gStewartVecs at hg
  unfold UserModel.gVal
  have hlen := hsys.gLen
  by_cases ht : um.gStewartTruthy = true
  · simp only [ht, if_true] at hg ⊢
    injection hg with hg
    subst hg
    have hgs := hsys.gGet
    rw [List.getElem?_map, Option.map_eq_some_iff] at hgs
    obtain ⟨c, hc, hc2⟩ := hgs
    have h1 : um.gSt s = c := by
      unfold UserModel.gSt
      rw [List.getD_eq_getElem?_getD, hc]; rfl
    rw [← hc2] at hlen ⊢
    rw [uvec_eq, at'_vec _ (by rw [uvec_eq, length_vec] at hlen; omega), h1]
    rfl
  · simp only [ht, Bool.false_eq_true, if_false] at hg ⊢
    rw [mapM_eq_ok] at hg
    have hl := hg.length_eq
    simp only [List.length_range] at hl
    have h2 := (List.forall₂_iff_get.1 hg).2 s (by simpa using hs) (by omega)
    simp only [List.get_eq_getElem, List.getElem_range, bind_eq_ok] at h2
    obtain ⟨S, hS, c, hc, h2⟩ := h2
    rw [optGet_eq_ok] at hS hc
    obtain ⟨Ss, hSs, hS⟩ := hS
    obtain ⟨cs, hcs, hc⟩ := hc
    have hSK : um.Smat s = S := by simp [UserModel.Smat, hSs, hS]
    have hcK : um.cVec s = c := by simp [UserModel.cVec, hcs, hc]
    have hgs : g.getD s [] = g[s] := by
      rw [List.getD_eq_getElem?_getD, List.getElem?_eq_getElem (by omega)]; rfl
    rw [hgs] at hlen ⊢
    unfold negSmulC at h2
    split at h2
    · rename_i hcols
      injection h2 with h2
      rw [← h2] at hlen ⊢
      rw [List.length_map, List.length_range] at hlen
      rw [hSK, hcK]
      have : at' ((List.range S.rows).map fun i env =>
          ((List.range S.cols).map fun k => -(S.entry i k) * at' (c.vec m.dims) k env).sum) i
          = fun env => ((List.range S.cols).map fun k =>
            -(S.entry i k) * at' (c.vec m.dims) k env).sum :=
        at'_vec (fun i env => ((List.range S.cols).map fun k =>
            -(S.entry i k) * at' (c.vec m.dims) k env).sum) (by omega)
      rw [this]
      beta_reduce
      rw [sum_map_range, ← Finset.sum_neg_distrib]
      apply Finset.sum_congr rfl
      intro k hk
      rw [uvec_eq, at'_vec _ (by
        rw [uvec_eq, length_vec] at hcols
        have := Finset.mem_range.1 hk; omega)]
      simp only [UVec.expr, neg_mul]
    · cases h2

/-! ### Binding of the function inputs -/

/-- What the inputs of the functions are bound to. -/
structure StageBind (um : UserModel) (o : PreOpts) (d : Dims) (k e j jl : Nat) (x : List ℝ)
    (env env' : Env) : Prop where
  x : d.mX.map env' = x
  z : ZBind um o d k e j jl env env'
  u : d.mU.map env' = uVal d k env
  p : d.mP.map env' = pVal d k env

theorem bind5 (h : Pre um o m nC nF g up f0 acc) (hz : ZOk o m) {X : Vec}
    (hX : X.length = m.dims.nX) (k e j jl : Nat) (env : Env) :
    let env' := rebind [m.dims.mX, m.zAll, m.dims.mU, m.dims.mP, m.dims.mV].flatten
      [X, vars (zSyms o m.dims k e j jl), ctrlU m.dims k, ctrlP m.dims k, globV m.dims].flatten env
    StageBind um o m.dims k e j jl (evalVec X env) env env' ∧ m.dims.mV.map env' = vVal m.dims env := by
  intro env'
  have hl : [m.dims.mX, m.zAll, m.dims.mU, m.dims.mP, m.dims.mV].map List.length
      = [X, vars (zSyms o m.dims k e j jl), ctrlU m.dims k, ctrlP m.dims k, globV m.dims].map
        List.length := by
    simp [hX, length_zSyms, show m.zAll.length = _ from hz]
  have hn : [m.dims.mX, m.zAll, m.dims.mU, m.dims.mP, m.dims.mV].flatten.Nodup :=
    nodup_kinds (ks := [0, 1, 2, 3, 4]) (by decide)
      (.cons ⟨nodup_mX, fun _ => kind_mX⟩ (.cons ⟨by rw [h.zAll]; exact nodup_zAll, by
        rw [h.zAll]; exact fun _ => kind_zAll⟩ (.cons ⟨nodup_mU, fun _ => kind_mU⟩
        (.cons ⟨nodup_mP, fun _ => kind_mP⟩ (.cons ⟨nodup_mV, fun _ => kind_mV⟩ .nil)))))
  have key := fun i h1 h2 => map_rebind_flatten (env := env) hl hn (i := i) h1 h2
  have k0 := key 0 (by simp) (by simp)
  have k1 := key 1 (by simp) (by simp)
  have k2 := key 2 (by simp) (by simp)
  have k3 := key 3 (by simp) (by simp)
  have k4 := key 4 (by simp) (by simp)
  refine ⟨⟨k0, ?_, ?_, ?_⟩, ?_⟩
  · refine zBind (by rw [← h.zAll]; exact hz) ?_
    rw [← h.zAll]
    exact k1.trans (evalVec_vars _ _)
  · exact k2.trans (evalVec_ctrlU _ _ _)
  · exact k3.trans (evalVec_ctrlP _ _ _)
  · exact k4.trans (evalVec_globV _ _)

theorem bind4 (h : Pre um o m nC nF g up f0 acc) (hz : ZOk o m) {X : Vec}
    (hX : X.length = m.dims.nX) (k e j jl : Nat) (env : Env) :
    let env' := rebind [m.dims.mX, m.zAll, m.dims.mU, m.dims.mP].flatten
      [X, vars (zSyms o m.dims k e j jl), ctrlU m.dims k, ctrlP m.dims k].flatten env
    StageBind um o m.dims k e j jl (evalVec X env) env env' := by
  intro env'
  have hl : [m.dims.mX, m.zAll, m.dims.mU, m.dims.mP].map List.length
      = [X, vars (zSyms o m.dims k e j jl), ctrlU m.dims k, ctrlP m.dims k].map
        List.length := by
    simp [hX, length_zSyms, show m.zAll.length = _ from hz]
  have hn : [m.dims.mX, m.zAll, m.dims.mU, m.dims.mP].flatten.Nodup :=
    nodup_kinds (ks := [0, 1, 2, 3]) (by decide)
      (.cons ⟨nodup_mX, fun _ => kind_mX⟩ (.cons ⟨by rw [h.zAll]; exact nodup_zAll, by
        rw [h.zAll]; exact fun _ => kind_zAll⟩ (.cons ⟨nodup_mU, fun _ => kind_mU⟩
        (.cons ⟨nodup_mP, fun _ => kind_mP⟩ .nil))))
  have key := fun i h1 h2 => map_rebind_flatten (env := env) hl hn (i := i) h1 h2
  have k0 := key 0 (by simp) (by simp)
  have k1 := key 1 (by simp) (by simp)
  have k2 := key 2 (by simp) (by simp)
  have k3 := key 3 (by simp) (by simp)
  refine ⟨k0, ?_, ?_, ?_⟩
  · refine zBind (by rw [← h.zAll]; exact hz) ?_
    rw [← h.zAll]
    exact k1.trans (evalVec_vars _ _)
  · exact k2.trans (evalVec_ctrlU _ _ _)
  · exact k3.trans (evalVec_ctrlP _ _ _)

/-! ### The right-hand side -/

theorem dims_nX (h : Pre um o m nC nF g up f0 acc) : m.dims.nX = um.nX := by rw [h.dims]; rfl
theorem dims_nSys (h : Pre um o m nC nF g up f0 acc) : m.dims.nSys = um.nSys := by rw [h.dims]; rfl

theorem Pre.stewartAcc (h : Pre um o m nC nF g up f0 acc) (hp : o.pss = .stewart) :
    (∀ s < um.nSys, StewartSys um m.dims g s) ∧ acc = Nosnoc.stewartAcc um m.dims g f0 um.nSys :=
  stewartFold (by rw [fx0_length h.hf0, dims_nX h]) (h.stewart hp)

theorem Pre.stepAcc (h : Pre um o m nC nF g up f0 acc) (hp : o.pss = .step) :
    (∀ s < um.nSys, StepSys um m.dims (um.alphaVars m.dims o.pss) s) ∧
      acc = Nosnoc.stepAcc um m.dims (um.alphaVars m.dims o.pss) f0 um.nSys := by
  have hu := h.hup
  rw [hp] at hu
  have := h.step hp
  rw [hp] at this ⊢
  exact stepFold (upsilon_ok hu) (by rw [fx0_length h.hf0, dims_nX h]) le_rfl this

theorem fx0_F {d : Dims} {al : List (List Sym)} (h : um.fx0 d nC al = .ok f0)
    (hF : um.F.isSome) {row : Nat} (hr : row < um.nX) (env : Env) : at' f0 row env = 0 := by
  unfold UserModel.fx0 at h
  split at h
  · rename_i hn _; rw [hn] at hF; cases hF
  · cases h
    simp [at', hr, const]

theorem nFsys_stewart (h : Pre um o m nC nF g up f0 acc) (hp : o.pss = .stewart) :
    um.F.isSome := by
  have := h.hnF
  rw [hp] at this
  unfold UserModel.nFsys at this
  cases hF : um.F with
  | some => rfl
  | none =>
    rw [hF] at this
    simp only [bind_eq_ok, check_eq_ok] at this
    obtain ⟨_, h, _⟩ := this
    exact absurd rfl h

/-- User-supplied `alpha` only occurs with general inclusions. -/
def AlphaOk (um : UserModel) : Prop := um.F.isSome → um.alpha = none

theorem alpha_bind {d : Dims} (ha : um.alpha = none) {k e j jl : Nat} {env env' : Env}
    (hb : ZBind um o d k e j jl env env') :
    ∀ s < d.nSys, ∀ i < d.famLen o.pss .alpha s,
      env' (.mAlg .alpha s i) = env (.st2 .alpha k e j s i) := by
  have := hb.alpha
  unfold UserModel.alphaVars at this
  rw [ha] at this
  exact row_match this

theorem regionWeight_congr {S : SMat} {i : Nat} {α β : Nat → ℝ}
    (h : ∀ k < S.cols, S.entry i k ≠ 0 → α k = β k) : regionWeight S i α = regionWeight S i β := by
  unfold regionWeight
  apply Finset.prod_congr rfl
  intro k hk
  simp only [Finset.mem_filter, Finset.mem_range] at hk
  rw [h k hk.1 hk.2]

/-- Entries of `S` used by the step representation address existing multipliers. -/
theorem upsilon_cols {al : List (List Sym)} (h : um.upsilon al .step = .ok up) (hF : um.F.isSome)
    {s : Nat} (hs : s < um.nSys) {j k : Nat} (hj : j < (um.Smat s).rows)
    (hk : k < (um.Smat s).cols) (hne : (um.Smat s).entry j k ≠ 0) :
    k < (al.getD s []).length := by
  unfold UserModel.upsilon at h
  rw [if_pos ⟨rfl, hF⟩] at h
  simp only [bind_eq_ok] at h
  obtain ⟨cols, hc, _, _, h⟩ := h
  cases h
  rw [mapM_eq_ok] at hc
  have hlen := hc.length_eq
  simp only [List.length_range] at hlen
  have h2 := (List.forall₂_iff_get.1 hc).2 s (by simpa using hs) (by omega)
  simp only [List.get_eq_getElem, List.getElem_range, bind_eq_ok] at h2
  obtain ⟨S, hS, a, ha, h2⟩ := h2
  rw [optGet_eq_ok] at hS ha
  obtain ⟨Ss, hSs, hS⟩ := hS
  obtain ⟨_, h', ha⟩ := ha
  cases h'
  have h3 : um.Smat s = S := by simp [UserModel.Smat, hSs, hS]
  have h4 : al.getD s [] = a := by simp [ha]
  unfold upsilonCol at h2
  split at h2
  · cases h2
  · rename_i hno
    push Not at hno
    rw [h3] at hj hk hne
    rw [h4]
    simpa using hno j hj k hk hne

theorem fxAt_eq (h : Pre um o m nC nF g up f0 acc) (hz : ZOk o m) (ha : AlphaOk um)
    {k e j row : Nat} (hr : row < um.nX) (env : Env) :
    at' (fxAt o m k e j) row env = um.stageRhs o m.dims k e j row env := by
  have hX : (stageX o m.dims k e j).length = m.dims.nX := length_stageX _ _ _ _
  have hb := bind5 h hz hX k e j j env
  generalize hE : rebind [m.dims.mX, m.zAll, m.dims.mU, m.dims.mP, m.dims.mV].flatten
      [stageX o m.dims k e j, vars (zSyms o m.dims k e j j), ctrlU m.dims k, ctrlP m.dims k,
        globV m.dims].flatten env = env' at hb
  obtain ⟨⟨hx, hzb, hu, hpv⟩, hv⟩ := hb
  have hat : at' (fxAt o m k e j) row env = at' acc.fx row env' := by
    unfold fxAt
    rw [h.fx]
    simp only [CFun.app, at', stageZ]
    rw [← hE, List.getD_eq_getElem?_getD, List.getD_eq_getElem?_getD, List.getElem?_map,
      List.getElem?_eq_getElem (by rw [h.accFx]; exact hr)]
    rfl
  have hrd : row < m.dims.nX := by rw [dims_nX h]; exact hr
  rw [hat]
  unfold UserModel.stageRhs
  cases hp : o.pss with
  | stewart =>
    simp only
    obtain ⟨hsys, hacc⟩ := h.stewartAcc hp
    have hF := nFsys_stewart h hp
    rw [hacc]
    simp only [Nosnoc.stewartAcc]
    rw [at'_vec _ hrd, fx0_F h.hf0 hF hr, zero_add]
    unfold UserModel.rhsStewart
    apply Finset.sum_congr rfl
    intro s hs
    have hs := Finset.mem_range.1 hs
    rw [(hsys s hs).cols]
    apply Finset.sum_congr rfl
    intro i hi
    rw [hzb.theta s (by rw [dims_nSys h]; exact hs) i (by
      rw [hp]; exact Finset.mem_range.1 hi)]
    unfold UMat.expr
    rw [hx, hzb.z, hu, hpv, hv]
    rfl
  | step =>
    obtain ⟨hsys, hacc⟩ := h.stepAcc hp
    rw [hacc]
    simp only [Nosnoc.stepAcc]
    rw [at'_vec _ hrd]
    cases hF : um.F with
    | some Fs =>
      have hFs : um.F.isSome := by rw [hF]; rfl
      simp only [Option.isSome_some, if_true]
      rw [fx0_F h.hf0 hFs hr, zero_add]
      unfold UserModel.rhsStep UserModel.rhsStewart
      apply Finset.sum_congr rfl
      intro s hs
      have hs := Finset.mem_range.1 hs
      apply Finset.sum_congr rfl
      intro i hi
      congr 1
      · unfold UMat.expr
        rw [hx, hzb.z, hu, hpv, hv]
        rfl
      · apply regionWeight_congr
        intro kk hkk hne
        have hal : (um.alphaVars m.dims o.pss).getD s []
            = blk (m.dims.famLen o.pss .alpha s) (.mAlg .alpha s) := by
          unfold UserModel.alphaVars
          rw [ha hFs]
          simp [Dims.stageVars, dims_nSys h, hs]
        have hup := h.hup
        rw [hp] at hup
        have hcol := upsilon_cols hup hFs hs (by
          rw [← ((hsys s hs).F Fs hF).2]; exact Finset.mem_range.1 hi) hkk hne
        rw [← hp, hal, length_blk] at hcol
        rw [hal, vars_blk, at'_vec _ hcol]
        exact alpha_bind (ha hFs) hzb s (by rw [dims_nSys h]; exact hs) kk hcol
    | none =>
      simp only [Option.isSome_none, Bool.false_eq_true, if_false, add_zero]
      have hf := h.hf0
      unfold UserModel.fx0 at hf
      cases hfx : um.fx with
      | none =>
        rw [hF, hfx] at hf
        cases hf
        simp [at', hr, const]
      | some f =>
        rw [hF, hfx] at hf
        simp only [bind_eq_ok] at hf
        obtain ⟨_, _, hf⟩ := hf
        injection hf with hf
        rw [← hf]
        have : ∀ φ : Nat → Expr, at' ((List.range um.nX).map φ) row = φ row :=
          fun φ => at'_vec φ hr
        rw [this]
        simp only
        rw [hx, hzb.alpha, hzb.z, hu, hpv, hv]
        rfl


/-! ### The algebraic equations -/

theorem app_zero_iff {f : CFun} {args : List Vec} {env : Env} :
    (∀ q ∈ f.app args, q env = 0) ↔
      ∀ q ∈ f.outs, q (rebind f.ins.flatten args.flatten env) = 0 := by
  simp [CFun.app]

theorem forall_vec {n : Nat} {φ : Nat → Expr} {P : Expr → Prop} :
    (∀ q ∈ vec n φ, P q) ↔ ∀ i < n, P (φ i) := by simp [vec]

theorem switching_iff (h : Pre um o m nC nF g up f0 acc) {k e j jl : Nat} {x : List ℝ}
    {env env' : Env} (hb : StageBind um o m.dims k e j jl x env env') :
    (∀ q ∈ acc.gSwitching, q env' = 0) ↔
      um.Switching o k e jl x (zVal m.dims k e j env) (pVal m.dims k env) env := by
  unfold UserModel.Switching
  cases hp : o.pss with
  | stewart =>
    obtain ⟨hsys, hacc⟩ := h.stewartAcc hp
    simp only [hacc, Nosnoc.stewartAcc, List.mem_flatMap, List.mem_range]
    constructor
    · intro H s hs i hi
      rw [(hsys s hs).cols] at hi
      have := H _ ⟨s, hs, List.mem_map.2 ⟨i, List.mem_range.2 hi, rfl⟩⟩
      beta_reduce at this
      rw [gStewart_at h hp hs (hsys s hs) hi, hb.x, hb.z.z, hb.p,
        hb.z.lam s (by rw [dims_nSys h]; exact hs) i (by rw [hp]; exact hi),
        hb.z.mu s (by rw [dims_nSys h]; exact hs) 0 (by rw [hp]; exact Nat.one_pos)] at this
      linarith
    · rintro H q ⟨s, hs, hq⟩
      obtain ⟨i, hi, rfl⟩ := List.mem_map.1 hq
      have hi := List.mem_range.1 hi
      beta_reduce
      rw [gStewart_at h hp hs (hsys s hs) hi, hb.x, hb.z.z, hb.p,
        hb.z.lam s (by rw [dims_nSys h]; exact hs) i (by rw [hp]; exact hi),
        hb.z.mu s (by rw [dims_nSys h]; exact hs) 0 (by rw [hp]; exact Nat.one_pos)]
      have := H s hs i (by rw [(hsys s hs).cols]; exact hi)
      linarith
  | step =>
    obtain ⟨hsys, hacc⟩ := h.stepAcc hp
    simp only [hacc, Nosnoc.stepAcc, List.mem_flatMap, List.mem_range]
    constructor
    · intro H s hs i hi
      rw [(hsys s hs).cLen] at hi
      have := H _ ⟨s, hs, List.mem_map.2 ⟨i, List.mem_range.2 hi, rfl⟩⟩
      beta_reduce at this
      unfold UVec.expr at this
      rw [hb.x, hb.z.z, hb.p,
        hb.z.lamP s (by rw [dims_nSys h]; exact hs) i (by rw [hp]; exact hi),
        hb.z.lamN s (by rw [dims_nSys h]; exact hs) i (by rw [hp]; exact hi)] at this
      linarith
    · rintro H q ⟨s, hs, hq⟩
      obtain ⟨i, hi, rfl⟩ := List.mem_map.1 hq
      have hi := List.mem_range.1 hi
      unfold UVec.expr
      beta_reduce
      rw [hb.x, hb.z.z, hb.p,
        hb.z.lamP s (by rw [dims_nSys h]; exact hs) i (by rw [hp]; exact hi),
        hb.z.lamN s (by rw [dims_nSys h]; exact hs) i (by rw [hp]; exact hi)]
      have := H s hs i (by rw [(hsys s hs).cLen]; exact hi)
      linarith

theorem convex_iff (h : Pre um o m nC nF g up f0 acc) {k e j jl : Nat} {x : List ℝ}
    {env env' : Env} (hb : StageBind um o m.dims k e j jl x env env') :
    (∀ q ∈ acc.gConvex, q env' = 0) ↔
      (o.pss = .stewart → ∀ s < um.nSys,
        ∑ i ∈ Finset.range (um.Fmat s).nCols, env (.st2 .theta k e j s i) = 1) := by
  cases hp : o.pss with
  | stewart =>
    obtain ⟨hsys, hacc⟩ := h.stewartAcc hp
    simp only [hacc, Nosnoc.stewartAcc, List.mem_map, List.mem_range, true_implies]
    have hsum : ∀ s < um.nSys, ∑ i ∈ Finset.range (m.dims.nF s), env' (.mAlg .theta s i)
        = ∑ i ∈ Finset.range (um.Fmat s).nCols, env (.st2 .theta k e j s i) := by
      intro s hs
      rw [(hsys s hs).cols]
      apply Finset.sum_congr rfl
      intro i hi
      exact hb.z.theta s (by rw [dims_nSys h]; exact hs) i (by
        rw [hp]; exact Finset.mem_range.1 hi)
    constructor
    · intro H s hs
      have := H _ ⟨s, hs, rfl⟩
      beta_reduce at this
      rw [hsum s hs] at this
      linarith
    · rintro H q ⟨s, hs, rfl⟩
      beta_reduce
      rw [hsum s hs, H s hs, sub_self]
  | step =>
    obtain ⟨hsys, hacc⟩ := h.stepAcc hp
    simp [hacc, Nosnoc.stepAcc]

theorem gzAt_iff (h : Pre um o m nC nF g up f0 acc) (hz : ZOk o m) {k e j : Nat} {env : Env} :
    (∀ q ∈ gzAt o m k e j, q env = 0) ↔
      um.Algebraic o m.dims k e j (xVal o m.dims k e j env) env := by
  have hb := bind4 h hz (length_stageX (o := o) m.dims k e j) k e j j env
  unfold gzAt
  rw [app_zero_iff, h.gz]
  unfold stageZ
  simp only at hb ⊢
  generalize rebind [m.dims.mX, m.zAll, m.dims.mU, m.dims.mP].flatten
      [stageX o m.dims k e j, vars (zSyms o m.dims k e j j), ctrlU m.dims k,
        ctrlP m.dims k].flatten env = env' at hb ⊢
  unfold UserModel.Algebraic
  rw [List.forall_mem_append, List.forall_mem_append, switching_iff h hb, convex_iff h hb,
    and_assoc]
  refine and_congr Iff.rfl (and_congr Iff.rfl ?_)
  simp only [List.mem_map, List.mem_range]
  constructor
  · intro H i hi
    have := H _ ⟨i, hi, rfl⟩
    rw [hb.x, hb.z.z, hb.u, hb.p] at this
    exact this
  · rintro H q ⟨i, hi, rfl⟩
    beta_reduce
    rw [hb.x, hb.z.z, hb.u, hb.p]
    exact H i hi

theorem swAt_iff (h : Pre um o m nC nF g up f0 acc) (hz : ZOk o m) {k e : Nat} {env : Env} :
    (∀ q ∈ swAt o m k e, q env = 0) ↔
      um.Switching o k e (lastLam o k e) (xEndVal o m.dims k e env)
        (zVal m.dims k e (o.nS - 1) env) (pVal m.dims k env) env := by
  have hb := bind4 h hz (length_endState (o := o) m.dims k e) k e (o.nS - 1) (lastLam o k e) env
  unfold swAt
  rw [app_zero_iff, h.sw]
  simp only at hb ⊢
  rw [evalVec_endState] at hb
  exact switching_iff h hb

/-! ### The user's ocp functions -/

variable {uo : UserOcp} {oc : PreOcp}

theorem bindXUPV {X : Vec} (hX : X.length = m.dims.nX) (k : Nat) (env : Env) :
    let env' := rebind [m.dims.mX, m.dims.mU, m.dims.mP, m.dims.mV].flatten
      [X, ctrlU m.dims k, ctrlP m.dims k, globV m.dims].flatten env
    m.dims.mX.map env' = evalVec X env ∧ m.dims.mU.map env' = uVal m.dims k env ∧
      m.dims.mP.map env' = pVal m.dims k env ∧ m.dims.mV.map env' = vVal m.dims env := by
  intro env'
  have hl : [m.dims.mX, m.dims.mU, m.dims.mP, m.dims.mV].map List.length
      = [X, ctrlU m.dims k, ctrlP m.dims k, globV m.dims].map List.length := by
    simp [hX]
  have hn : [m.dims.mX, m.dims.mU, m.dims.mP, m.dims.mV].flatten.Nodup :=
    nodup_kinds (ks := [0, 2, 3, 4]) (by decide)
      (.cons ⟨nodup_mX, fun _ => kind_mX⟩ (.cons ⟨nodup_mU, fun _ => kind_mU⟩
        (.cons ⟨nodup_mP, fun _ => kind_mP⟩ (.cons ⟨nodup_mV, fun _ => kind_mV⟩ .nil))))
  have key := fun i h1 h2 => map_rebind_flatten (env := env) hl hn (i := i) h1 h2
  exact ⟨key 0 (by simp) (by simp), (key 1 (by simp) (by simp)).trans (evalVec_ctrlU _ _ _),
    (key 2 (by simp) (by simp)).trans (evalVec_ctrlP _ _ _),
    (key 3 (by simp) (by simp)).trans (evalVec_globV _ _)⟩

theorem fqAt_eq (ho : OcpPre uo m oc) (k e j : Nat) (env : Env) :
    fqAt o m oc k e j env = uo.fq (xVal o m.dims k e j env) (uVal m.dims k env)
      (pVal m.dims k env) (vVal m.dims env) := by
  obtain ⟨h1, h2, h3, h4⟩ := bindXUPV (m := m) (length_stageX (o := o) m.dims k e j) k env
  unfold fqAt
  rw [ho.fq]
  show uo.fq _ _ _ _ = _
  rw [h1, h2, h3, h4]
  rfl

theorem gPathAt_eq (ho : OcpPre uo m oc) {k : Nat} {X : Vec} (hX : X.length = m.dims.nX) :
    gPathAt m oc k X = vec uo.nGPath fun i env =>
      uo.gPath i (evalVec X env) (uVal m.dims k env) (pVal m.dims k env) (vVal m.dims env) := by
  unfold gPathAt CFun.app
  rw [ho.gPath]
  unfold vec
  rw [List.map_map]
  apply List.map_congr_left
  intro i _
  funext env
  obtain ⟨h1, h2, h3, h4⟩ := bindXUPV (m := m) hX k env
  simp only [Function.comp_def]
  rw [h1, h2, h3, h4]

theorem bindXPV {X : Vec} (hX : X.length = m.dims.nX) (k : Nat) (env : Env) :
    let env' := rebind [m.dims.mX, m.dims.mP, m.dims.mV].flatten
      [X, ctrlP m.dims k, globV m.dims].flatten env
    m.dims.mX.map env' = evalVec X env ∧
      m.dims.mP.map env' = pVal m.dims k env ∧ m.dims.mV.map env' = vVal m.dims env := by
  intro env'
  have hl : [m.dims.mX, m.dims.mP, m.dims.mV].map List.length
      = [X, ctrlP m.dims k, globV m.dims].map List.length := by
    simp [hX]
  have hn : [m.dims.mX, m.dims.mP, m.dims.mV].flatten.Nodup :=
    nodup_kinds (ks := [0, 3, 4]) (by decide)
      (.cons ⟨nodup_mX, fun _ => kind_mX⟩
        (.cons ⟨nodup_mP, fun _ => kind_mP⟩ (.cons ⟨nodup_mV, fun _ => kind_mV⟩ .nil)))
  have key := fun i h1 h2 => map_rebind_flatten (env := env) hl hn (i := i) h1 h2
  exact ⟨key 0 (by simp) (by simp),
    (key 1 (by simp) (by simp)).trans (evalVec_ctrlP _ _ _),
    (key 2 (by simp) (by simp)).trans (evalVec_globV _ _)⟩

theorem gT_eq (ho : OcpPre uo m oc) :
    oc.gTerminalFun.app (termArgs o m.dims) = vec uo.nGTerminal fun i env =>
      uo.gTerminal i (xEndVal o m.dims (o.nStages - 1) (nfe o (o.nStages - 1) - 1) env)
        (pVal m.dims (o.nStages - 1) env) (vVal m.dims env) := by
  unfold CFun.app
  rw [ho.gT]
  unfold vec
  rw [List.map_map]
  apply List.map_congr_left
  intro i _
  funext env
  obtain ⟨h1, h3, h4⟩ := bindXPV (m := m)
    (length_endState (o := o) m.dims (o.nStages - 1) (nfe o (o.nStages - 1) - 1))
    (o.nStages - 1) env
  simp only [Function.comp_def, termArgs]
  rw [h1, h3, h4, evalVec_endState]

theorem fqT_eq (ho : OcpPre uo m oc) (env : Env) :
    at' (oc.fqTFun.app (termArgs o m.dims)) 0 env =
      uo.fTerminal (xEndVal o m.dims (o.nStages - 1) (nfe o (o.nStages - 1) - 1) env)
        (pVal m.dims (o.nStages - 1) env) (vVal m.dims env) := by
  rw [ho.fqT]
  obtain ⟨h1, h3, h4⟩ := bindXPV (m := m)
    (length_endState (o := o) m.dims (o.nStages - 1) (nfe o (o.nStages - 1) - 1))
    (o.nStages - 1) env
  show uo.fTerminal _ _ _ = _
  simp only [termArgs]
  rw [h1, h3, h4, evalVec_endState]

end
end Nosnoc
