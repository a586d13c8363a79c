import Verif.Spec.Accept
import Verif.Proofs.ZOk
/-
Preprocessing succeeds exactly for the consistent models.
-/
namespace Nosnoc

variable {um : UserModel} {o : PreOpts} {m : PreModel}

theorem foldlM_ok {α β : Type} {f : β → α → Except PyErr β} {l : List α}
    (h : ∀ a ∈ l, ∀ b, ∃ b', f b a = .ok b') (b : β) : ∃ b', l.foldlM f b = .ok b' := by
  induction l generalizing b with
  | nil => exact ⟨b, rfl⟩
  | cons a l ih =>
    obtain ⟨b', hb⟩ := h a (List.mem_cons_self) b
    rw [List.foldlM_cons, hb]
    exact ih (fun x hx => h x (List.mem_cons_of_mem _ hx)) b'

theorem check_pos {p : Prop} [Decidable p] {e : PyErr} (h : p) : check p e = .ok () := if_pos h

theorem lenOk_iff {α : Type} {v : Option (List α)} {n : Nat} {d : α} :
    (∃ l, orDefault v n d = .ok l) ↔ LenOk v n := by
  unfold orDefault LenOk
  cases v with
  | none => simp
  | some l =>
    by_cases h : l.length = n
    · simp [h]
    · simp [h]

theorem pVal_iff {n : Nat} : (∃ l, um.pValCtrl n = .ok l) ↔ um.pGlobalVal.length = um.nPgl ∧
    ∀ V, um.pTimeVarVal = some V → V.length = n ∧ ∀ r ∈ V, r.length = um.nPtv := by
  unfold UserModel.pValCtrl UserModel.ptv
  simp only [bind_eq_ok, check_eq_ok]
  cases hV : um.pTimeVarVal with
  | none => simp
  | some V => simp

/-- Assembling the pieces of preprocessing. -/
theorem preprocess_of_parts {nC nF : List Nat} {g up : List Vec} {f0 : Vec}
    (hc : CommonOk um o) (h1 : um.nCsys = .ok nC) (h2 : um.nFsys o.pss = .ok nF)
    (h3 : um.gStewartVecs (dimsOf um nC nF) o.pss = .ok g)
    (h4 : um.upsilon (um.alphaVars (dimsOf um nC nF) o.pss) o.pss = .ok up)
    (h5 : um.fx0 (dimsOf um nC nF) nC (um.alphaVars (dimsOf um nC nF) o.pss) = .ok f0)
    (h6 : o.pss = .stewart → ∀ s < um.nSys, ∀ acc,
      ∃ acc', stewartBody um (dimsOf um nC nF) g acc s = .ok acc')
    (h7 : o.pss = .step → ∀ s < um.nSys, ∀ acc,
      ∃ acc', stepBody um (dimsOf um nC nF) up (um.alphaVars (dimsOf um nC nF) o.pss) acc s
        = .ok acc') :
    ∃ m, um.preprocess o = .ok m := by
  obtain ⟨z0, e1⟩ := (lenOk_iff (d := (0 : ℝ))).2 hc.z0
  obtain ⟨lbz, e2⟩ := (lenOk_iff (d := (⊥ : EReal))).2 hc.lbz
  obtain ⟨ubz, e3⟩ := (lenOk_iff (d := (⊤ : EReal))).2 hc.ubz
  obtain ⟨pv, e4⟩ := (pVal_iff (n := o.nStages)).2 ⟨hc.pGlobal, hc.pTimeVar⟩
  have e5 : check (um.tVar.isSome ∨ o.timeFreezing = false) .valueError = .ok () :=
    (check_eq_ok).2 hc.time
  unfold UserModel.preprocess
  simp only [e1, e2, e3, e4, h1, h2, e5, ok_bind]
  unfold dimsOf at h3 h4 h5 h6 h7
  simp only [h3, h4, h5, ok_bind]
  cases hp : o.pss with
  | stewart =>
    obtain ⟨acc, ha⟩ := foldlM_ok (l := List.range um.nSys)
      (fun s hs b => h6 hp s (List.mem_range.1 hs) b) ⟨f0, [], [], []⟩
    simp only
    rw [ha]
    exact ⟨_, rfl⟩
  | step =>
    obtain ⟨acc, ha⟩ := foldlM_ok (l := List.range um.nSys)
      (fun s hs b => h7 hp s (List.mem_range.1 hs) b) ⟨f0, [], [], []⟩
    rw [hp] at ha
    simp only
    rw [ha]
    exact ⟨_, rfl⟩

theorem optGet_some {α : Type} {l : List α} {i : Nat} (h : i < l.length) :
    optGet (some l) i = .ok l[i] := by
  simp [optGet, h]

theorem switched_ok (hc : CommonOk um o) {Fs cs Ss} (h : SwitchedOk um o.pss Fs cs Ss)
    (ha : um.alpha = none) : ∃ m, um.preprocess o = .ok m := by
  have hn : um.nSys = Fs.length := by simp [UserModel.nSys, h.F]
  have hg : um.gStewartTruthy = false := by simp [UserModel.gStewartTruthy, h.g]
  have hcv : ∀ s, s < Fs.length → optGet um.c s = .ok (um.cVec s) := by
    intro s hs
    have hs' : s < cs.length := by have := h.lenFC; omega
    rw [h.c, optGet_some hs']
    simp [UserModel.cVec, h.c, hs']
  have hSv : ∀ s, s < Fs.length → optGet um.S s = .ok (um.Smat s) := by
    intro s hs
    have hs' : s < Ss.length := by have := h.lenFC; have := h.lenCS; omega
    rw [h.S, optGet_some hs']
    simp [UserModel.Smat, h.S, hs']
  have hFv : ∀ s, s < Fs.length → optGet um.F s = .ok (um.Fmat s) := by
    intro s hs
    rw [h.F, optGet_some hs]
    simp [UserModel.Fmat, h.F, hs]
  have h1 : um.nCsys = .ok ((List.range Fs.length).map fun s => (um.cVec s).len) := by
    unfold UserModel.nCsys
    rw [if_neg (by simp [hg]), hn, mapM_eq_ok]
    rw [List.forall₂_map_right_iff, List.forall₂_same]
    intro s hs
    rw [hcv s (List.mem_range.1 hs)]
    rfl
  have h2 : um.nFsys o.pss = .ok (Fs.map UMat.nCols) := by
    unfold UserModel.nFsys
    rw [h.F, h.c, h.S]
    simp only [hg, Bool.false_eq_true, if_false, bind_eq_ok, check_eq_ok]
    refine ⟨(), h.switching, (), h.lenCS, (), ?_, trivial⟩
    rintro ⟨f, S⟩ hfs
    obtain ⟨s, hs, hget⟩ := List.getElem_of_mem hfs
    rw [List.getElem_zip] at hget
    rw [List.length_zip] at hs
    have hs1 : s < Fs.length := by omega
    have hs2 : s < Ss.length := by omega
    have := h.rows s hs1
    simp only [UserModel.Fmat, UserModel.Smat, h.F, h.S, Option.getD_some,
      List.getD_eq_getElem?_getD, List.getElem?_eq_getElem hs1, List.getElem?_eq_getElem hs2] at this
    cases hget
    exact this
  have hlen : ∀ s < Fs.length, ((List.range Fs.length).map fun s => (um.cVec s).len).getD s 0
      = (um.cVec s).len := by
    intro s hs
    simp [List.getD_eq_getElem?_getD, hs]
  have hlenF : ∀ s < Fs.length, (Fs.map UMat.nCols).getD s 0 = (um.Fmat s).nCols := by
    intro s hs
    simp [List.getD_eq_getElem?_getD, hs, UserModel.Fmat, h.F]
  set d := dimsOf um ((List.range Fs.length).map fun s => (um.cVec s).len) (Fs.map UMat.nCols) with hd
  have hdC : ∀ s < Fs.length, d.nC s = (um.cVec s).len := hlen
  have hdF : ∀ s < Fs.length, d.nF s = (um.Fmat s).nCols := hlenF
  have hdn : d.nSys = Fs.length := hn
  have hsv : ∀ (pss : PssMode) (f : Fam2) (s : Nat), s < Fs.length →
      optGet (some (d.stageVars pss f)) s = .ok (blk (d.famLen pss f s) (.mAlg f s)) := by
    intro pss f s hs
    have hs' : s < (d.stageVars pss f).length := by simp [Dims.stageVars, hdn, hs]
    rw [optGet_some hs']
    simp [Dims.stageVars]
  have h5 : um.fx0 d ((List.range Fs.length).map fun s => (um.cVec s).len) (um.alphaVars d o.pss)
      = .ok (List.replicate um.nX (const 0)) := by
    unfold UserModel.fx0
    rw [h.F]
  cases hp : o.pss with
  | stewart =>
    have h3 : ∃ g, um.gStewartVecs d o.pss = .ok g ∧ g.length = Fs.length ∧
        ∀ s, (hs : s < g.length) → g[s].length = (um.Smat s).rows := by
      have hm : um.gStewartVecs d .stewart = .ok ((List.range Fs.length).map fun s =>
          (List.range (um.Smat s).rows).map fun i env => ((List.range (um.Smat s).cols).map fun k =>
            -((um.Smat s).entry i k) * at' ((um.cVec s).vec d) k env).sum) := by
        unfold UserModel.gStewartVecs
        simp only [hg, Bool.false_eq_true, if_false]
        rw [hn, mapM_eq_ok, List.forall₂_map_right_iff, List.forall₂_same]
        intro s hs
        have hs := List.mem_range.1 hs
        rw [hSv s hs, hcv s hs]
        simp only [ok_bind]
        unfold negSmulC
        rw [if_pos (by rw [h.cols hp s hs, uvec_eq, length_vec])]
      rw [hp]
      exact ⟨_, hm, by simp, by simp⟩
    obtain ⟨g, h3, h3l, h3r⟩ := h3
    have h4 : um.upsilon (um.alphaVars d o.pss) o.pss = .ok [] := by
      unfold UserModel.upsilon
      rw [if_neg (by simp [hp])]
    refine preprocess_of_parts hc h1 h2 h3 h4 h5 (fun _ s hs acc => ?_)
      (fun hc => absurd (hp.symm.trans hc) (by decide))
    rw [hn] at hs
    unfold stewartBody
    rw [hFv s hs, hsv _ _ s hs, hsv _ _ s hs, hsv _ _ s hs, optGet_some (by omega)]
    simp only [ok_bind]
    unfold UMat.mul
    rw [if_pos (by simp [vars, blk, Dims.famLen, hdF s hs])]
    simp only [ok_bind]
    rw [check_pos (by simp [blk, Dims.famLen, hdF s hs, h3r, h.rows s hs])]
    exact ⟨_, rfl⟩
  | step =>
    have h3 : um.gStewartVecs d o.pss = .ok [] := by rw [hp]; rfl
    have hal : um.alphaVars d o.pss = d.stageVars .step .alpha := by
      unfold UserModel.alphaVars; rw [ha, hp]
    have h4 : ∃ up, um.upsilon (um.alphaVars d o.pss) o.pss = .ok up ∧ up.length = Fs.length ∧
        ∀ s, (hs : s < up.length) → up[s].length = (um.Smat s).rows := by
      have hm : (List.range um.nSys).mapM (fun i => do
            let S ← optGet um.S i
            let a ← optGet (some (d.stageVars .step .alpha)) i
            upsilonCol S (vars a)) = .ok ((List.range Fs.length).map fun s =>
              (List.range (um.Smat s).rows).map fun j =>
                upsilonRow (um.Smat s) (vars (blk (d.nC s) (.mAlg .alpha s))) j) := by
        rw [hn, mapM_eq_ok, List.forall₂_map_right_iff, List.forall₂_same]
        intro s hs
        have hs := List.mem_range.1 hs
        rw [hSv s hs, hsv _ _ s hs]
        simp only [ok_bind]
        unfold upsilonCol
        rw [if_neg]
        · rfl
        · rintro ⟨j, hj, k, hk, hne, hle⟩
          have := h.used hp s hs j hj k hk hne
          rw [vars, List.length_map, length_blk] at hle
          simp only [Dims.famLen] at hle
          rw [hdC s hs] at hle
          omega
      rw [hal, hp]
      unfold UserModel.upsilon
      rw [if_pos ⟨rfl, by rw [h.F]; rfl⟩, hm]
      simp only [ok_bind]
      rw [check_pos]
      · exact ⟨_, rfl, by simp, by simp⟩
      · intro v hv
        obtain ⟨s, hs, rfl⟩ := List.mem_map.1 hv
        have hs := List.mem_range.1 hs
        obtain ⟨n, hn0⟩ : ∃ n, Fs.length = n + 1 := ⟨Fs.length - 1, by omega⟩
        rw [hn0, List.range_succ_eq_map]
        simpa using h.equal hp s hs
    obtain ⟨up, h4, h4l, h4r⟩ := h4
    refine preprocess_of_parts hc h1 h2 h3 h4 h5
      (fun hc => absurd (hp.symm.trans hc) (by decide)) (fun _ s hs acc => ?_)
    rw [hn] at hs
    unfold stepBody
    have hr : ∃ v, stepRhs um d up acc.fx s = .ok v := by
      unfold stepRhs
      rw [h.F]
      simp only
      rw [← h.F, hFv s hs, optGet_some (by omega)]
      simp only [ok_bind]
      unfold UMat.mul
      rw [if_pos (by rw [h4r, h.rows s hs])]
      exact ⟨_, rfl⟩
    obtain ⟨v, hr⟩ := hr
    rw [hal, hr, hsv _ _ s hs, hcv s hs, hsv _ _ s hs, hsv _ _ s hs]
    simp only [ok_bind]
    rw [check_pos (by simp [blk, Dims.famLen, hdC s hs])]
    exact ⟨_, rfl⟩

theorem checkGStewart_iff {Fs : List UMat} {gs : List UVec} {i : Nat} :
    checkGStewart Fs i gs = .ok () ↔ ∀ s, (hs : s < gs.length) →
      ∃ f, Fs[i + s]? = some f ∧ gs[s].len = f.nCols := by
  induction gs generalizing i with
  | nil => simp [checkGStewart]
  | cons g gs ih =>
    unfold checkGStewart
    constructor
    · intro h s hs
      cases hF : Fs[i]? with
      | none => rw [hF] at h; cases h
      | some f =>
        rw [hF] at h
        simp only [bind_eq_ok, check_eq_ok] at h
        obtain ⟨_, h1, h2⟩ := h
        cases s with
        | zero => exact ⟨f, by simpa using hF, h1⟩
        | succ s =>
          obtain ⟨f', h3, h4⟩ := ih.1 h2 s (by simpa using hs)
          exact ⟨f', by rw [← h3]; congr 1; omega, h4⟩
    · intro h
      obtain ⟨f, h1, h2⟩ := h 0 (by simp)
      rw [Nat.add_zero] at h1
      rw [h1]
      simp only [bind_eq_ok, check_eq_ok]
      refine ⟨(), h2, ih.2 fun s hs => ?_⟩
      obtain ⟨f', h3, h4⟩ := h (s + 1) (by simpa using hs)
      exact ⟨f', by rw [← h3]; congr 1; omega, h4⟩

theorem indicator_ok (hc : CommonOk um o) {Fs gs} (h : IndicatorOk um o.pss Fs gs) :
    ∃ m, um.preprocess o = .ok m := by
  have hn : um.nSys = Fs.length := by simp [UserModel.nSys, h.F]
  have hg : um.gStewartTruthy = true := by
    obtain ⟨a, l, hl⟩ := List.exists_cons_of_ne_nil h.nonempty
    simp [UserModel.gStewartTruthy, h.g, hl]
  have hFv : ∀ s, s < Fs.length → optGet um.F s = .ok (um.Fmat s) := by
    intro s hs
    rw [h.F, optGet_some hs]
    simp [UserModel.Fmat, h.F, hs]
  have h1 : um.nCsys = .ok [0] := by
    unfold UserModel.nCsys
    rw [if_pos hg]
  have hgl : ∀ s, (hs : s < gs.length) → um.gSt s = gs[s] := by
    intro s hs
    simp [UserModel.gSt, h.g, hs]
  have h2 : um.nFsys o.pss = .ok (Fs.map UMat.nCols) := by
    unfold UserModel.nFsys
    rw [h.F, h.g]
    simp only [hg, if_true, bind_eq_ok, check_eq_ok]
    refine ⟨(), h.switching, (), h.stewart, (), ?_, trivial⟩
    simp only [Option.getD_some]
    refine (checkGStewart_iff).2 fun s hs => ?_
    have hs' : s < Fs.length := by have := h.len; omega
    refine ⟨Fs[s], by simp [hs'], ?_⟩
    have := h.cols s hs'
    rw [hgl s hs] at this
    rw [this]
    simp [UserModel.Fmat, h.F, hs']
  set d := dimsOf um [0] (Fs.map UMat.nCols) with hd
  have hdF : ∀ s < Fs.length, d.nF s = (um.Fmat s).nCols := by
    intro s hs
    show (Fs.map UMat.nCols).getD s 0 = _
    simp [List.getD_eq_getElem?_getD, hs, UserModel.Fmat, h.F]
  have hdn : d.nSys = Fs.length := hn
  have hsv : ∀ (pss : PssMode) (f : Fam2) (s : Nat), s < Fs.length →
      optGet (some (d.stageVars pss f)) s = .ok (blk (d.famLen pss f s) (.mAlg f s)) := by
    intro pss f s hs
    have hs' : s < (d.stageVars pss f).length := by simp [Dims.stageVars, hdn, hs]
    rw [optGet_some hs']
    simp [Dims.stageVars]
  have h5 : um.fx0 d [0] (um.alphaVars d o.pss) = .ok (List.replicate um.nX (const 0)) := by
    unfold UserModel.fx0
    rw [h.F]
  have h3 : um.gStewartVecs d o.pss = .ok (gs.map (UVec.vec d)) := by
    rw [h.stewart]
    unfold UserModel.gStewartVecs
    simp [hg, h.g]
  have h4 : um.upsilon (um.alphaVars d o.pss) o.pss = .ok [] := by
    unfold UserModel.upsilon
    rw [if_neg (by simp [h.stewart])]
  refine preprocess_of_parts hc h1 h2 h3 h4 h5 (fun _ s hs acc => ?_)
    (fun hc => absurd (h.stewart.symm.trans hc) (by decide))
  rw [hn] at hs
  have hsg : s < gs.length := by have := h.len; omega
  unfold stewartBody
  rw [hFv s hs, hsv _ _ s hs, hsv _ _ s hs, hsv _ _ s hs, optGet_some (by simpa using hsg)]
  simp only [ok_bind]
  unfold UMat.mul
  rw [if_pos (by simp [vars, blk, Dims.famLen, hdF s hs])]
  simp only [ok_bind]
  rw [check_pos (by
    rw [List.getElem_map, uvec_eq, length_vec, length_blk, ← hgl s hsg, h.cols s hs]
    exact (hdF s hs).symm)]
  exact ⟨_, rfl⟩

theorem inclusion_ok (hc : CommonOk um o) {f cs al} (h : InclusionOk um o.pss f cs al) :
    ∃ m, um.preprocess o = .ok m := by
  have hn : um.nSys = f.pieces := by simp [UserModel.nSys, h.F, h.fx]
  have hcv : ∀ s, s < f.pieces → optGet um.c s = .ok (um.cVec s) := by
    intro s hs
    have hs' : s < cs.length := by have := h.lenC; omega
    rw [h.c, optGet_some hs']
    simp [UserModel.cVec, h.c, hs']
  have hzero : um.gStewartTruthy = true → ∀ c ∈ cs, c.len = 0 := by
    intro hg
    have h0 := h.total.trans (h.noG hg)
    have := List.sum_eq_zero_iff.1 h0
    intro c hc
    exact this _ (List.mem_map.2 ⟨c, hc, rfl⟩)
  have h1 : ∃ nC, um.nCsys = .ok nC ∧ nC.sum = al.sum ∧
      ∀ s < f.pieces, nC.getD s 0 = (um.cVec s).len := by
    unfold UserModel.nCsys
    cases hg : um.gStewartTruthy with
    | true =>
      refine ⟨[0], rfl, (h.noG hg).symm, fun s hs => ?_⟩
      have hs' : s < cs.length := by have := h.lenC; omega
      have h0 : (um.cVec s).len = 0 := by
        have := hzero hg cs[s] (List.getElem_mem hs')
        simpa [UserModel.cVec, h.c, hs'] using this
      rw [h0]
      cases s <;> rfl
    | false =>
      refine ⟨(List.range f.pieces).map fun s => (um.cVec s).len, ?_, ?_, ?_⟩
      · rw [if_neg (by simp), hn, mapM_eq_ok, List.forall₂_map_right_iff, List.forall₂_same]
        intro s hs
        rw [hcv s (List.mem_range.1 hs)]
        rfl
      · rw [← h.first hg]
        congr 1
        refine List.ext_getElem (by simp [h.lenC]) fun s h1 h2 => ?_
        have h1' : s < f.pieces := by simpa using h1
        have hs' : s < cs.length := by have := h.lenC; omega
        simp [UserModel.cVec, h.c, hs']
      · intro s hs
        simp [List.getD_eq_getElem?_getD, hs]
  obtain ⟨nC, h1, hsum, hlen⟩ := h1
  have h2 : um.nFsys o.pss = .ok f.shape1 := by
    unfold UserModel.nFsys
    rw [h.F, h.c, h.alpha, h.fx]
    simp only [bind_eq_ok, check_eq_ok]
    exact ⟨(), by rw [h.step]; decide, (), h.total, trivial⟩
  set d := dimsOf um nC f.shape1 with hd
  have hdC : ∀ s < f.pieces, d.nC s = (um.cVec s).len := hlen
  have hdn : d.nSys = f.pieces := hn
  have hsv : ∀ (pss : PssMode) (g : Fam2) (s : Nat), s < f.pieces →
      optGet (some (d.stageVars pss g)) s = .ok (blk (d.famLen pss g s) (.mAlg g s)) := by
    intro pss g s hs
    have hs' : s < (d.stageVars pss g).length := by simp [Dims.stageVars, hdn, hs]
    rw [optGet_some hs']
    simp [Dims.stageVars]
  have hal : um.alphaVars d o.pss = al.zipIdx.map fun ns => blk ns.1 (.mAlg .alpha ns.2) := by
    unfold UserModel.alphaVars; rw [h.alpha]
  have hall : (um.alphaVars d o.pss).flatten.length = al.sum := by
    rw [hal, List.length_flatten, List.map_map]
    congr 1
    refine List.ext_getElem (by simp) fun s h1 h2 => ?_
    simp
  have h5 : ∃ f0, um.fx0 d nC (um.alphaVars d o.pss) = .ok f0 := by
    unfold UserModel.fx0
    rw [h.F, h.fx]
    simp only
    rw [check_pos (hsum.trans hall.symm)]
    exact ⟨_, rfl⟩
  obtain ⟨f0, h5⟩ := h5
  have h3 : um.gStewartVecs d o.pss = .ok [] := by rw [h.step]; rfl
  have h4 : um.upsilon (um.alphaVars d o.pss) o.pss = .ok [] := by
    unfold UserModel.upsilon
    rw [if_neg (by simp [h.F])]
  refine preprocess_of_parts hc h1 h2 h3 h4 h5
    (fun hc => absurd (h.step.symm.trans hc) (by decide)) (fun _ s hs acc => ?_)
  rw [hn] at hs
  unfold stepBody
  have hr : stepRhs um d [] acc.fx s = .ok acc.fx := by
    unfold stepRhs
    rw [h.F]
  rw [hr, hal, optGet_some (by
    have := h.lenA
    simp only [List.length_map, List.length_zipIdx]; omega), hcv s hs, hsv _ _ s hs, hsv _ _ s hs]
  simp only [ok_bind]
  rw [check_pos (by rw [length_blk]; exact (hdC s hs).symm)]
  exact ⟨_, rfl⟩

/-! ### Necessity -/

theorem common_of (h : um.preprocess o = .ok m) : CommonOk um o := by
  obtain ⟨nC, nF, g, up, f0, acc, hp⟩ := preprocess_pre h
  have := pVal_iff.1 ⟨_, hp.pVal⟩
  exact ⟨lenOk_iff.1 ⟨_, hp.z0⟩, lenOk_iff.1 ⟨_, hp.lbz⟩, lenOk_iff.1 ⟨_, hp.ubz⟩, this.1, this.2,
    hp.tCheck⟩

theorem kinds_of (hi : um.initCheck = .ok ()) (ha : AlphaOk um) (h : um.preprocess o = .ok m) :
    (∃ Fs cs Ss, SwitchedOk um o.pss Fs cs Ss) ∨ (∃ Fs gs, IndicatorOk um o.pss Fs gs) ∨
    ∃ f cs al, InclusionOk um o.pss f cs al := by
  obtain ⟨nC, nF, g, up, f0, acc, hp⟩ := preprocess_pre h
  have hnC := hp.hnC
  have hnF := hp.hnF
  unfold UserModel.initCheck at hi
  simp only [bind_eq_ok, check_eq_ok] at hi
  obtain ⟨_, hx, hi⟩ := hi
  cases hF : um.F with
  | some Fs =>
    have hn : um.nSys = Fs.length := by simp [UserModel.nSys, hF]
    rw [hF] at hx hi
    simp only [Option.isSome_some, if_true, check_eq_ok] at hi
    unfold UserModel.nFsys at hnF
    rw [hF] at hnF
    simp only [bind_eq_ok, check_eq_ok] at hnF
    obtain ⟨_, hsw, hnF⟩ := hnF
    cases hg : um.gStewartTruthy with
    | true =>
      rw [hg] at hnF
      simp only [if_true, bind_eq_ok, check_eq_ok] at hnF
      obtain ⟨_, hst, _, hck, hnF⟩ := hnF
      cases hgs : um.gStewart with
      | none => simp [UserModel.gStewartTruthy, hgs] at hg
      | some gs =>
        have hne : gs ≠ [] := by
          rintro rfl
          simp [UserModel.gStewartTruthy, hgs] at hg
        rw [hgs] at hi hck
        have hcS : um.c = none ∨ um.S = none := by
          simp only [Option.isSome_some, Bool.xor_true, Bool.not_eq_true', Bool.and_eq_false_iff] at hi
          simpa using hi
        have hck := checkGStewart_iff.1 hck
        simp only [Option.getD_some, Nat.zero_add] at hck
        have hle : gs.length ≤ Fs.length := by
          by_contra hlt
          obtain ⟨f, h1, _⟩ := hck Fs.length (by omega)
          simp at h1
        have hge : Fs.length ≤ gs.length := by
          obtain ⟨hsys, _⟩ := hp.stewartAcc hst
          have h3 := hp.hg
          rw [hst] at h3
          unfold UserModel.gStewartVecs at h3
          simp only [hg, if_true, hgs, Option.getD_some] at h3
          injection h3 with h3
          by_contra hlt
          have := (hsys gs.length (by omega)).gGet
          rw [← h3] at this
          simp at this
        refine .inr (.inl ⟨Fs, gs, hF, hgs, hne, hcS, hst, hsw, by omega, fun s hs => ?_⟩)
        have hs' : s < gs.length := by omega
        obtain ⟨f, h1, h2⟩ := hck s hs'
        simp only [UserModel.gSt, UserModel.Fmat, hgs, hF, Option.getD_some,
          List.getD_eq_getElem?_getD, List.getElem?_eq_getElem hs', h1]
        exact h2
    | false =>
      rw [hg] at hnF
      simp only [Bool.false_eq_true, if_false] at hnF
      cases hc : um.c with
      | none => rw [hc] at hnF; cases hnF
      | some cs =>
        cases hS : um.S with
        | none => rw [hc, hS] at hnF; cases hnF
        | some Ss =>
          rw [hc, hS] at hnF hi
          simp only [bind_eq_ok, check_eq_ok] at hnF
          obtain ⟨_, hlen, _, hzip, _⟩ := hnF
          have hgn : um.gStewart = none := by simpa using hi
          have hFC : Fs.length ≤ cs.length := by
            unfold UserModel.nCsys at hnC
            rw [if_neg (by simp [hg]), mapM_eq_ok] at hnC
            have hl := hnC.length_eq
            simp only [List.length_range] at hl
            by_contra hlt
            have h2 := (List.forall₂_iff_get.1 hnC).2 cs.length (by simp [hn]; omega) (by omega)
            rw [hc] at h2
            simp [optGet] at h2
          have hrows : ∀ s < Fs.length, (um.Fmat s).nCols = (um.Smat s).rows := by
            intro s hs
            have hs' : s < Ss.length := by omega
            have := hzip (Fs[s], Ss[s]) (List.mem_iff_getElem.2 ⟨s, by simp; omega, by simp⟩)
            simpa [UserModel.Fmat, UserModel.Smat, hF, hS, hs, hs'] using this
          have hcols : o.pss = .stewart → ∀ s < Fs.length, (um.Smat s).cols = (um.cVec s).len := by
            intro hps s hs
            have hgv := hp.hg
            rw [hps] at hgv
            unfold UserModel.gStewartVecs at hgv
            simp only [hg, Bool.false_eq_true, if_false] at hgv
            rw [mapM_eq_ok] at hgv
            have hl := hgv.length_eq
            simp only [List.length_range] at hl
            have h2 := (List.forall₂_iff_get.1 hgv).2 s (by simp [hn]; exact hs) (by omega)
            simp only [List.get_eq_getElem, List.getElem_range, bind_eq_ok] at h2
            obtain ⟨S, hS', c, hc', h2⟩ := h2
            rw [optGet_eq_ok] at hS' hc'
            obtain ⟨Ss', hSs, hS'⟩ := hS'
            obtain ⟨cs', hcs, hc'⟩ := hc'
            have hSK : um.Smat s = S := by simp [UserModel.Smat, hSs, hS']
            have hcK : um.cVec s = c := by simp [UserModel.cVec, hcs, hc']
            unfold negSmulC at h2
            split at h2
            · rename_i hcols
              rw [uvec_eq, length_vec] at hcols
              rw [hSK, hcK]
              exact hcols
            · cases h2
          refine .inl ⟨Fs, cs, Ss, hF, hc, hS, hgn, hsw, hlen, hFC, hrows, hcols, ?_, ?_⟩
          · intro hps s hs i hi k hk hne
            have hsys := (hp.stepAcc hps).1 s (by rw [hn]; exact hs)
            have hal : (um.alphaVars m.dims o.pss).getD s []
                = blk (m.dims.famLen o.pss .alpha s) (.mAlg .alpha s) := by
              unfold UserModel.alphaVars
              rw [ha (by rw [hF]; rfl)]
              simp [Dims.stageVars, dims_nSys hp, hn, hs]
            have hup := hp.hup
            rw [hps] at hup
            have hcol := upsilon_cols hup (by rw [hF]; rfl) (by rw [hn]; exact hs) hi hk hne
            rw [← hps, hal, length_blk, hps] at hcol
            rw [hsys.cLen]
            exact hcol
          · intro hps s hs
            have hup := hp.hup
            rw [hps] at hup
            have hu := upsilon_ok hup (by rw [hF]; rfl)
            have hu0 := hu 0 (by omega)
            have hus := hu s (by omega)
            unfold UserModel.upsilon at hup
            rw [if_pos ⟨rfl, by rw [hF]; rfl⟩] at hup
            simp only [bind_eq_ok, check_eq_ok] at hup
            obtain ⟨cols, _, _, hchk, hup⟩ := hup
            injection hup with hup
            rw [hup] at hchk
            have := hchk _ (List.mem_of_getElem? hus)
            cases up with
            | nil => simp at hu0
            | cons v vs =>
              simp only [List.getElem?_cons_zero, Option.some.injEq] at hu0
              simp only [List.headD_cons] at this
              rw [hu0, length_vec, length_vec] at this
              exact this
  | none =>
    rw [hF] at hx
    simp only [Option.isSome_none, Bool.false_xor, Bool.and_eq_true] at hx
    obtain ⟨hfx, hal⟩ := hx
    obtain ⟨f, hf⟩ := Option.isSome_iff_exists.1 hfx
    obtain ⟨al, hal⟩ := Option.isSome_iff_exists.1 hal
    have hn : um.nSys = f.pieces := by simp [UserModel.nSys, hF, hf]
    unfold UserModel.nFsys at hnF
    rw [hF] at hnF
    simp only [bind_eq_ok, check_eq_ok] at hnF
    obtain ⟨_, hps, hnF⟩ := hnF
    have hps : o.pss = .step := by cases hq : o.pss with
      | stewart => exact absurd hq hps
      | step => rfl
    cases hc : um.c with
    | none => rw [hc] at hnF; cases hnF
    | some cs =>
      rw [hc, hal] at hnF
      simp only [bind_eq_ok, check_eq_ok] at hnF
      obtain ⟨_, htot, _⟩ := hnF
      have hsys := (hp.stepAcc hps).1
      have hav : um.alphaVars m.dims o.pss = al.zipIdx.map fun ns => blk ns.1 (.mAlg .alpha ns.2) := by
        unfold UserModel.alphaVars; rw [hal]
      have hall : (um.alphaVars m.dims o.pss).flatten.length = al.sum := by
        rw [hav, List.length_flatten, List.map_map]
        congr 1
        refine List.ext_getElem (by simp) fun s h1 h2 => ?_
        simp
      have hA : f.pieces ≤ al.length := by
        by_contra hlt
        have := (hsys al.length (by omega)).al
        rw [hav] at this
        simp at this
      have hC : f.pieces ≤ cs.length := by
        by_contra hlt
        obtain ⟨cs', h1, h2⟩ := (hsys cs.length (by omega)).c
        rw [hc] at h1
        cases h1
        simp at h2
      have h0 := hp.hf0
      unfold UserModel.fx0 at h0
      rw [hF, hf] at h0
      simp only [bind_eq_ok, check_eq_ok] at h0
      obtain ⟨_, hsum, _⟩ := h0
      rw [hall] at hsum
      refine .inr (.inr ⟨f, cs, al, hF, hf, hc, hal, hps, htot, hA, hC, ?_, ?_⟩)
      · intro hg
        rw [← hsum]
        unfold UserModel.nCsys at hnC
        rw [if_neg (by simp [hg]), hn, mapM_eq_ok] at hnC
        congr 1
        have hl := hnC.length_eq
        simp only [List.length_range] at hl
        refine List.ext_getElem (by simp [hC]; omega) fun s h1 h2 => ?_
        have h2' := (List.forall₂_iff_get.1 hnC).2 s (by simp; omega) h2
        have hs' : s < cs.length := by omega
        rw [hc] at h2'
        simp only [List.get_eq_getElem, List.getElem_range, optGet_some hs'] at h2'
        injection h2' with h2'
        simpa using h2'
      · intro hg
        rw [← hsum]
        unfold UserModel.nCsys at hnC
        rw [if_pos hg] at hnC
        cases hnC
        rfl

end Nosnoc
