import Verif.Proofs.AutoNonlin
import Verif.Proofs.Accept
/-
Lemmas about `_reformulate_linear`.
-/
namespace Nosnoc
open Spec

/-- `f0` where `c` is positive, `f1` where it is negative. -/
def Splits (e f0 f1 c : SX) : Prop := ∀ I env,
  (0 < c.eval I env → e.eval I env = f0.eval I env) ∧
  (c.eval I env < 0 → e.eval I env = f1.eval I env)

theorem rebuildAdditive_smooth {e : SX} (h : outer e = []) :
    rebuildAdditive e = .ok ([e], none, none) := by
  induction e with
  | num q => rfl
  | leaf l => rfl
  | un op a ih =>
      cases op with
      | sign => simp [outer] at h
      | neg => simp only [rebuildAdditive]; rw [ih h]; rfl
      | other n => simp only [rebuildAdditive]; rw [ih h]; rfl
  | bin op a b iha ihb =>
      by_cases ho : op = .fmax ∨ op = .fmin
      · simp [outer, ho] at h
      · simp only [outer, ho, if_false, List.append_eq_nil_iff] at h
        have := iha h.1
        have := ihb h.2
        cases op <;> simp at ho <;> simp only [rebuildAdditive] <;> simp [*, ok_bind]

theorem rebuildAdditive_one {e n : SX} (h : outer e = [n])
    {ch : List SX} {c : Option SX} {S : Option (List Int)}
    (hr : rebuildAdditive e = .ok (ch, c, S)) :
    c = some (switchOf n) ∧ S = some [1, -1] ∧ ∃ f0 f1, ch = [f0, f1] ∧
      Splits e f0 f1 (switchOf n) := by
  induction e generalizing ch c S with
  | num q => simp [outer] at h
  | leaf l => simp [outer] at h
  | un op a ih =>
      have step : ∀ op : UnOp, op ≠ .sign → outer a = [n] →
          (do let (children, c, S) ← rebuildAdditive a
              Except.ok (ε := PyErr) (children.map (SX.un op), c, S)) = .ok (ch, c, S) →
          c = some (switchOf n) ∧ S = some [1, -1] ∧ ∃ f0 f1, ch = [f0, f1] ∧
            Splits (.un op a) f0 f1 (switchOf n) := by
        intro op _ ha hr
        cases hra : rebuildAdditive a with
        | error e => rw [hra] at hr; cases hr
        | ok r =>
            obtain ⟨ch', c', S'⟩ := r
            rw [hra] at hr
            cases hr
            obtain ⟨h1, h2, f0, f1, rfl, h3⟩ := ih ha hra
            refine ⟨h1, h2, .un op f0, .un op f1, rfl, fun I env => ⟨fun hp => ?_, fun hp => ?_⟩⟩
            · simp only [SX.eval, (h3 I env).1 hp]
            · simp only [SX.eval, (h3 I env).2 hp]
      cases op with
      | sign =>
          simp only [outer, if_true, List.cons.injEq, and_true] at h
          subst h
          cases hr
          refine ⟨rfl, rfl, _, _, rfl, fun I env => ⟨fun hp => ?_, fun hp => ?_⟩⟩
          · change 0 < a.eval I env at hp
            change Real.sign (a.eval I env) = ((1 : ℚ) : ℝ)
            rw [Real.sign_of_pos hp]; norm_num
          · change a.eval I env < 0 at hp
            change Real.sign (a.eval I env) = ((-1 : ℚ) : ℝ)
            rw [Real.sign_of_neg hp]; norm_num
      | neg => exact step .neg (by simp) h hr
      | other n => exact step (.other n) (by simp) h hr
  | bin op a b iha ihb =>
      have step : ∀ op : BinOp, outer a ++ outer b = [n] →
          (do let (lc, c1, S1) ← rebuildAdditive a
              let (rc, c2, S2) ← rebuildAdditive b
              Except.ok (ε := PyErr)
                (lc.flatMap fun l => rc.map fun r => SX.bin op l r, c1.or c2, S1.or S2))
            = .ok (ch, c, S) →
          c = some (switchOf n) ∧ S = some [1, -1] ∧ ∃ f0 f1, ch = [f0, f1] ∧
            Splits (.bin op a b) f0 f1 (switchOf n) := by
        intro op ha hr
        rcases List.append_eq_singleton_iff.1 ha with ⟨h0, h1⟩ | ⟨h1, h0⟩
        · rw [rebuildAdditive_smooth h0] at hr
          cases hra : rebuildAdditive b with
          | error e => rw [hra] at hr; cases hr
          | ok r =>
              obtain ⟨ch', c', S'⟩ := r
              rw [hra] at hr
              cases hr
              obtain ⟨e1, e2, f0, f1, rfl, h3⟩ := ihb h1 hra
              refine ⟨by simpa using e1, by simpa using e2, .bin op a f0, .bin op a f1, by simp,
                fun I env => ⟨fun hp => ?_, fun hp => ?_⟩⟩
              · simp only [SX.eval, (h3 I env).1 hp]
              · simp only [SX.eval, (h3 I env).2 hp]
        · cases hra : rebuildAdditive a with
          | error e => rw [hra] at hr; cases hr
          | ok r =>
              obtain ⟨ch', c', S'⟩ := r
              rw [hra] at hr
              simp only [ok_bind] at hr
              rw [rebuildAdditive_smooth h0] at hr
              cases hr
              obtain ⟨e1, e2, f0, f1, rfl, h3⟩ := iha h1 hra
              refine ⟨by simp [e1], by simp [e2], .bin op f0 b, .bin op f1 b, by simp,
                fun I env => ⟨fun hp => ?_, fun hp => ?_⟩⟩
              · simp only [SX.eval, (h3 I env).1 hp]
              · simp only [SX.eval, (h3 I env).2 hp]
      cases op with
      | fmax =>
          simp only [outer, true_or, if_true, List.cons.injEq, and_true] at h
          subst h
          cases hr
          refine ⟨rfl, rfl, _, _, rfl, fun I env => ⟨fun hp => ?_, fun hp => ?_⟩⟩
          · change 0 < a.eval I env - b.eval I env at hp
            exact max_eq_left (by linarith)
          · change a.eval I env - b.eval I env < 0 at hp
            exact max_eq_right (by linarith)
      | fmin => cases hr
      | add => exact step .add (by simpa [outer] using h) hr
      | sub => exact step .sub (by simpa [outer] using h) hr
      | mul => exact step .mul (by simpa [outer] using h) hr
      | other n => exact step (.other n) (by simpa [outer] using h) hr

/-- What `addComp` returns for a component with one outermost nonsmooth node. -/
theorem addComp_one {id : Nat} {e n : SX} {a : AddComp} (h : outer e = [n])
    (ha : addComp id e = .ok a) :
    a.c = switchOf n ∧ a.S = [1, -1] ∧ a.id = id ∧ Splits e a.f0 a.f1 a.c := by
  unfold addComp at ha
  cases hr : rebuildAdditive e with
  | error e => rw [hr] at ha; cases ha
  | ok r =>
      obtain ⟨ch, c, S⟩ := r
      obtain ⟨rfl, rfl, f0, f1, rfl, h3⟩ := rebuildAdditive_one h hr
      rw [hr] at ha
      cases ha
      exact ⟨rfl, rfl, rfl, h3⟩

/-! The dictionary of switching functions. -/

/-- What holds of the dictionary after some insertions. -/
structure KeysInv (L : List AddComp) (m : List (Nat × SX × List Int)) : Prop where
  from' : ∀ e ∈ m, e.2.2 = [1, -1] ∧ ∃ a ∈ L, e.1 = a.id ∧ e.2.1 = a.c
  has : ∀ a ∈ L, ∃ e ∈ m, e.1 = a.id
  nodup : (m.map Prod.fst).Nodup

theorem insertKey_inv {L : List AddComp} {m : List (Nat × SX × List Int)} (h : KeysInv L m)
    {a : AddComp} (hS : a.S = [1, -1]) : KeysInv (L ++ [a]) (insertKey m a) := by
  unfold insertKey
  split
  · rename_i hany
    rw [List.any_eq_true] at hany
    obtain ⟨e0, he0, hid⟩ := hany
    simp only [decide_eq_true_eq] at hid
    refine ⟨?_, ?_, ?_⟩
    · intro e he
      rw [List.mem_map] at he
      obtain ⟨e', he', rfl⟩ := he
      obtain ⟨h1, b, hb, h2, h3⟩ := h.from' e' he'
      split
      · exact ⟨hS, b, by simp [hb], h2, h3⟩
      · exact ⟨h1, b, by simp [hb], h2, h3⟩
    · intro b hb
      rw [List.mem_append, List.mem_singleton] at hb
      have : ∃ e ∈ m, e.1 = b.id := by
        rcases hb with hb | rfl
        · exact h.has b hb
        · exact ⟨e0, he0, hid⟩
      obtain ⟨e, he, h1⟩ := this
      refine ⟨if e.1 = a.id then (e.1, e.2.1, a.S) else e, List.mem_map_of_mem he, ?_⟩
      split <;> exact h1
    · rw [List.map_map]
      have : (m.map (Prod.fst ∘ fun e => if e.1 = a.id then (e.1, e.2.1, a.S) else e))
          = m.map Prod.fst := by
        apply List.map_congr_left
        intro e _
        simp only [Function.comp_apply]
        split <;> rfl
      rw [this]; exact h.nodup
  · rename_i hany
    rw [List.any_eq_true] at hany
    simp only [decide_eq_true_eq, not_exists, not_and] at hany
    refine ⟨?_, ?_, ?_⟩
    · intro e he
      rw [List.mem_append, List.mem_singleton] at he
      rcases he with he | rfl
      · obtain ⟨h1, b, hb, h2, h3⟩ := h.from' e he
        exact ⟨h1, b, by simp [hb], h2, h3⟩
      · exact ⟨hS, a, by simp, rfl, rfl⟩
    · intro b hb
      rw [List.mem_append, List.mem_singleton] at hb
      rcases hb with hb | rfl
      · obtain ⟨e, he, h1⟩ := h.has b hb
        exact ⟨e, by simp [he], h1⟩
      · exact ⟨(b.id, b.c, b.S), by simp, rfl⟩
    · rw [List.map_append, List.nodup_append]
      refine ⟨h.nodup, by simp, ?_⟩
      intro i hi j hj
      simp only [List.map_cons, List.map_nil, List.mem_singleton] at hj
      subst hj
      rw [List.mem_map] at hi
      obtain ⟨e, he, rfl⟩ := hi
      exact hany e he

theorem foldl_insertKey (L : List AddComp) (hS : ∀ a ∈ L, a.S = [1, -1]) :
    KeysInv L (L.foldl insertKey []) := by
  induction L using List.reverseRecOn with
  | nil => exact ⟨by simp, by simp, by simp⟩
  | append_singleton L a ih =>
      rw [List.foldl_append]
      exact insertKey_inv (ih fun b hb => hS b (by simp [hb])) (hS a (by simp))

theorem KeysInv.cs {L : List AddComp} {m : List (Nat × SX × List Int)} (h : KeysInv L m)
    (hsound : ∀ a ∈ L, ∀ b ∈ L, a.id = b.id → a.c = b.c)
    (hshared : ∀ a ∈ L, ∀ b ∈ L, a.c = b.c → a.id = b.id) :
    (m.map fun e => e.2.1).Nodup ∧ ∀ a ∈ L, a.c ∈ m.map fun e => e.2.1 := by
  constructor
  · have h1 := h.nodup
    rw [List.nodup_map_iff_inj_on (h.nodup.of_map _)] at h1 ⊢
    intro e he e' he' hc
    obtain ⟨-, a, ha, h2, h3⟩ := h.from' e he
    obtain ⟨-, b, hb, h4, h5⟩ := h.from' e' he'
    exact h1 e he e' he' (by rw [h2, h4]; exact hshared a ha b hb (by rw [← h3, ← h5]; exact hc))
  · intro a ha
    obtain ⟨e, he, h1⟩ := h.has a ha
    obtain ⟨-, b, hb, h2, h3⟩ := h.from' e he
    refine List.mem_map.2 ⟨e, he, ?_⟩
    rw [h3]
    exact hsound b hb a ha (by rw [← h2, h1])

/-! Sums -/

section
variable {I : Interp} {env : Leaf → ℝ}

theorem sumList_eval {l : List SX} {e : SX} (h : sumList l = .ok e) :
    e.eval I env = (l.map (SX.eval I env)).sum := by
  cases l with
  | nil => cases h
  | cons a l =>
      cases h
      induction l using List.reverseRecOn with
      | nil => simp
      | append_singleton l b ih =>
          rw [List.foldl_append]
          change (l.foldl (.bin .add) a).eval I env + b.eval I env = _
          rw [ih]
          simp [add_assoc]

theorem foldl_add_eval (l : List AddComp) (g : AddComp → SX) :
    (l.foldl (fun acc a => SX.bin .add acc (g a)) (.num 0)).eval I env
      = (l.map fun a => (g a).eval I env).sum := by
  induction l using List.reverseRecOn with
  | nil => simp [SX.eval]
  | append_singleton l b ih =>
      rw [List.foldl_append]
      change (l.foldl (fun acc a => SX.bin .add acc (g a)) (.num 0)).eval I env
        + (g b).eval I env = _
      rw [ih]
      simp

/-- Summing over groups. -/
theorem sum_groups (row : List AddComp) (cs : List SX) (hn : cs.Nodup) (f : AddComp → ℝ)
    (hc : ∀ a ∈ row, a.c ∈ cs) :
    (cs.map fun c => ((row.filter fun a => a.c = c).map f).sum).sum = (row.map f).sum := by
  induction row with
  | nil => simp
  | cons a row ih =>
      have ih' := ih fun b hb => hc b (by simp [hb])
      have h1 : ∀ c, (((a :: row).filter fun b => b.c = c).map f).sum
          = (if a.c = c then f a else 0) + ((row.filter fun b => b.c = c).map f).sum := by
        intro c
        by_cases h : a.c = c <;> simp [List.filter_cons, h]
      have h2 : ∀ cs : List SX, cs.Nodup → a.c ∈ cs →
          (cs.map fun c => if a.c = c then f a else 0).sum = f a := by
        intro cs hn hm
        induction cs with
        | nil => simp at hm
        | cons c cs ihc =>
            rw [List.nodup_cons] at hn
            by_cases h : a.c = c
            · have h0 : (cs.map fun c => if a.c = c then f a else 0).sum = 0 := by
                apply List.sum_eq_zero
                intro x hx
                rw [List.mem_map] at hx
                obtain ⟨d, hd, rfl⟩ := hx
                refine if_neg ?_
                rintro rfl
                exact hn.1 (h ▸ hd)
              simp [h] at h0 ⊢
              exact h0
            · have := ihc hn.2 (by simpa [h] using hm)
              simp [h, this]
      simp only [h1]
      rw [List.sum_map_add, h2 cs hn (hc a (by simp)), ih']
      simp

/-- Splitting a list by smoothness. -/
theorem sum_filter_split (l : List SX) (p : SX → Bool) (f : SX → ℝ) :
    (l.map f).sum = ((l.filter p).map f).sum + ((l.filter fun t => !p t).map f).sum := by
  induction l with
  | nil => simp
  | cons a l ih =>
      cases h : p a <;> simp [List.filter_cons, h, ih] <;> ring

end

/-! The rows -/

theorem mapM_get {α β : Type} {f : α → Except PyErr β} {l : List α} {r : List β}
    (h : l.mapM f = .ok r) : r.length = l.length ∧
      ∀ i (hi : i < l.length) (hi' : i < r.length), f l[i] = .ok r[i] := by
  have h2 := mapM_eq_ok.1 h
  exact ⟨h2.length_eq.symm, fun i hi hi' => (List.forall₂_iff_get.1 h2).2 i hi hi'⟩

theorem collate_get {nid : Nat → Nat} {N : List SX} {L : List AddComp}
    (h : collate nid N = .ok L) : L.length = N.length ∧
      ∀ j (hj : j < N.length) (hj' : j < L.length), addComp (nid j) N[j] = .ok L[j] := by
  obtain ⟨h1, h2⟩ := mapM_get h
  refine ⟨by simpa using h1, fun j hj hj' => ?_⟩
  have := h2 j (by simpa using hj) hj'
  simpa using this

/-- The nonsmooth components. -/
def nonsmoothOf (e : SX) : List SX := (components e).filter fun t => !checkSmooth t

theorem nonsmooth_one {e : SX} (h : ∀ t ∈ components e, (outer t).length ≤ 1) {t : SX}
    (ht : t ∈ nonsmoothOf e) : ∃ n, outer t = [n] := by
  simp only [nonsmoothOf, List.mem_filter, Bool.not_eq_true', ← Bool.not_eq_true,
    checkSmooth_iff, smooth_iff_outer] at ht
  have := h t ht.1
  match hh : outer t with
  | [] => exact absurd hh ht.2
  | [n] => exact ⟨n, rfl⟩
  | a :: b :: l => rw [hh] at this; simp at this

theorem nonsmooth_switch {l : List SX} (h : ∀ t ∈ l, (outer t).length ≤ 1) :
    l.flatMap (fun t => (outer t).take 1)
      = (l.filter fun t => !checkSmooth t).map fun t => (outer t).headD (.num 0) := by
  induction l with
  | nil => rfl
  | cons a l ih =>
      have ih' := ih fun t ht => h t (by simp [ht])
      have ha := h a (by simp)
      rw [List.flatMap_cons, ih']
      match hh : outer a with
      | [] =>
          have : checkSmooth a = true := (checkSmooth_iff a).2 ((smooth_iff_outer a).2 hh)
          simp [this]
      | [n] =>
          have : checkSmooth a = false := by
            rw [← Bool.not_eq_true, checkSmooth_iff, smooth_iff_outer, hh]; simp
          simp [this, hh]
      | b :: c :: l => rw [hh] at ha; simp at ha

/-- What is known about an entry of the collated components of row `i`. -/
theorem collated_entry {nid : Nat → Nat → Nat} {rows : List SX} (h1 : OneEach rows) {i : Nat}
    (hi : i < rows.length) {L : List AddComp} (hL : collate (nid i) (nonsmoothOf rows[i]) = .ok L) :
    (∀ a ∈ L, a.S = [1, -1] ∧ ∃ j, a.id = nid i j ∧ switchAt rows i j = some a.c) ∧
    ∀ I env, (∀ a ∈ L, a.c.eval I env ≠ 0) →
      ((nonsmoothOf rows[i]).map (SX.eval I env)).sum
        = (L.map fun a => if 0 < a.c.eval I env then a.f0.eval I env else a.f1.eval I env).sum := by
  have h1' := h1 rows[i] (List.getElem_mem hi)
  obtain ⟨hlen, hget⟩ := collate_get hL
  have one : ∀ j (hj : j < (nonsmoothOf rows[i]).length), ∃ n, outer (nonsmoothOf rows[i])[j] = [n] :=
    fun j hj => nonsmooth_one h1' (List.getElem_mem hj)
  constructor
  · intro a ha
    obtain ⟨j, hj, rfl⟩ := List.mem_iff_getElem.1 ha
    have hj' : j < (nonsmoothOf rows[i]).length := by omega
    obtain ⟨n, hn⟩ := one j hj'
    obtain ⟨e1, e2, e3, -⟩ := addComp_one hn (hget j hj' hj)
    refine ⟨e2, j, e3, ?_⟩
    have hg : rows.getD i (.num 0) = rows[i] := by simp [List.getD, hi]
    unfold switchAt
    simp only [hg]
    rw [nonsmooth_switch h1']
    change (Option.map switchOf ((nonsmoothOf rows[i]).map _)[j]?) = _
    rw [List.getElem?_map, List.getElem?_eq_getElem hj']
    simp [hn, e1]
  · intro I env hne
    congr 1
    refine List.ext_getElem (by simp [hlen]) fun j hj hj' => ?_
    simp only [List.length_map] at hj hj'
    obtain ⟨n, hn⟩ := one j hj
    obtain ⟨-, -, -, e4⟩ := addComp_one hn (hget j hj hj')
    simp only [List.getElem_map]
    rcases lt_or_gt_of_ne (hne _ (List.getElem_mem hj')) with h | h
    · rw [if_neg (not_lt.2 h.le)]; exact (e4 I env).2 h
    · rw [if_pos h]; exact (e4 I env).1 h

/-- The result of `_reformulate_linear` on a fresh object. -/
structure LinearRun (E : AutoEnv) (rows : List SX) (s' : AutoState) (common : List SX)
    (collated : List (List AddComp)) : Prop where
  lenCommon : common.length = rows.length
  commonGet : ∀ i (hi : i < rows.length) (hi' : i < common.length),
    sumList ((components rows[i]).filter checkSmooth) = .ok common[i]
  lenCollated : collated.length = rows.length
  collatedGet : ∀ i (hi : i < rows.length) (hi' : i < collated.length),
    collate (E.nodeId i) (nonsmoothOf rows[i]) = .ok collated[i]
  c : s'.c = (csMap collated (E.order (allC collated))).map fun e => e.2.1
  S : s'.S = (csMap collated (E.order (allC collated))).map fun e => e.2.2
  F : addCommon common ((csMap collated (E.order (allC collated))).map fun e =>
    collated.map fun row => fEntry row e.2.1) = .ok s'.F

theorem linear_run {E : AutoEnv} {rows : List SX} {s' : AutoState}
    (h : reformulateLinear E rows .init = .ok s') :
    ∃ common collated, LinearRun E rows s' common collated := by
  unfold reformulateLinear at h
  simp only [bind_eq_ok] at h
  obtain ⟨common, h1, collated, h2, F, h3, h4⟩ := h
  cases h4
  obtain ⟨a1, a2⟩ := mapM_get h1
  obtain ⟨b1, b2⟩ := mapM_get h2
  refine ⟨common, collated, by simpa using a1, fun i hi hi' => ?_, by simpa using b1,
    fun i hi hi' => ?_, rfl, rfl, by simpa [AutoState.init] using h3⟩
  · have := a2 i (by simpa using hi) hi'
    simpa using this
  · have := b2 i (by simpa using hi) hi'
    simpa [nonsmoothOf] using this

theorem LinearRun.mem {E : AutoEnv} {rows : List SX} {s' : AutoState} {common : List SX}
    {collated : List (List AddComp)} (_h : LinearRun E rows s' common collated) (ho : SetOrder E)
    {a : AddComp} :
    a ∈ (collated.flatMap fun row => (E.order (allC collated)).flatMap fun c =>
        row.filter fun a => a.c = c) ↔ ∃ row ∈ collated, a ∈ row := by
  simp only [List.mem_flatMap, List.mem_filter, decide_eq_true_eq]
  constructor
  · rintro ⟨row, hr, c, -, ha, -⟩
    exact ⟨row, hr, ha⟩
  · rintro ⟨row, hr, ha⟩
    refine ⟨row, hr, a.c, ?_, ha, rfl⟩
    rw [(ho _).mem_iff, allC, List.mem_dedup, List.mem_map]
    exact ⟨a, List.mem_flatten.2 ⟨row, hr, ha⟩, rfl⟩

theorem LinearRun.keys {E : AutoEnv} {rows : List SX} {s' : AutoState} {common : List SX}
    {collated : List (List AddComp)} (h : LinearRun E rows s' common collated) (ho : SetOrder E)
    (h1 : OneEach rows) (hsd : NodesSound E rows) (hsh : NodesShared E rows) :
    s'.c.Nodup ∧ (∀ row ∈ collated, ∀ a ∈ row, a.c ∈ s'.c) ∧
    (∀ S ∈ s'.S, S = [1, -1]) ∧ ∀ c ∈ s'.c, ∃ row ∈ collated, ∃ a ∈ row, a.c = c := by
  have entry : ∀ row ∈ collated, ∀ a ∈ row, a.S = [1, -1] ∧
      ∃ i j, a.id = E.nodeId i j ∧ switchAt rows i j = some a.c := by
    intro row hr a ha
    obtain ⟨i, hi, rfl⟩ := List.mem_iff_getElem.1 hr
    have hi' : i < rows.length := by have := h.lenCollated; omega
    obtain ⟨e1, j, e2⟩ := (collated_entry h1 hi' (h.collatedGet i hi' hi)).1 a ha
    exact ⟨e1, i, j, e2⟩
  have inv := foldl_insertKey (collated.flatMap fun row => (E.order (allC collated)).flatMap
      fun c => row.filter fun a => a.c = c) (by
    intro a ha
    obtain ⟨row, hr, ha'⟩ := (h.mem ho).1 ha
    exact (entry row hr a ha').1)
  have hcs := inv.cs (by
    intro a ha b hb hid
    obtain ⟨r, hr, ha'⟩ := (h.mem ho).1 ha
    obtain ⟨r', hr', hb'⟩ := (h.mem ho).1 hb
    obtain ⟨-, i, j, e1, e2⟩ := entry r hr a ha'
    obtain ⟨-, i', j', e3, e4⟩ := entry r' hr' b hb'
    exact hsd i j i' j' _ _ e2 e4 (by rw [← e1, ← e3, hid])) (by
    intro a ha b hb hc
    obtain ⟨r, hr, ha'⟩ := (h.mem ho).1 ha
    obtain ⟨r', hr', hb'⟩ := (h.mem ho).1 hb
    obtain ⟨-, i, j, e1, e2⟩ := entry r hr a ha'
    obtain ⟨-, i', j', e3, e4⟩ := entry r' hr' b hb'
    rw [e1, e3]
    exact hsh i j i' j' a.c e2 (by rw [e4, hc]))
  refine ⟨by rw [h.c]; exact hcs.1, ?_, ?_, ?_⟩
  · intro row hr a ha
    rw [h.c]
    exact hcs.2 a ((h.mem ho).2 ⟨row, hr, ha⟩)
  · intro S hS
    rw [h.S, List.mem_map] at hS
    obtain ⟨e, he, rfl⟩ := hS
    exact (inv.from' e he).1
  · intro c hc
    rw [h.c, List.mem_map] at hc
    obtain ⟨e, he, rfl⟩ := hc
    obtain ⟨-, a, ha, -, h3⟩ := inv.from' e he
    obtain ⟨row, hr, ha'⟩ := (h.mem ho).1 ha
    exact ⟨row, hr, a, ha', h3.symm⟩

theorem map_range_getD {α β : Type} (l : List α) (d : α) (h : α → β) :
    (List.range l.length).map (fun s => h (l.getD s d)) = l.map h := by
  refine List.ext_getElem (by simp) fun i hi hi' => ?_
  simp only [List.length_map, List.length_range] at hi
  simp [List.getD, hi]

theorem sum_range_head (n : Nat) (hn : 0 < n) (x : ℝ) :
    ((List.range n).map fun s => if s = 0 then x else 0).sum = x := by
  obtain ⟨m, rfl⟩ : ∃ m, n = m + 1 := ⟨n - 1, by omega⟩
  rw [List.range_succ_eq_map]
  simp [Function.comp_def]

theorem LinearRun.length {E : AutoEnv} {rows : List SX} {s' : AutoState} {common : List SX}
    {collated : List (List AddComp)} (h : LinearRun E rows s' common collated) :
    s'.F.length = s'.c.length ∧ s'.S.length = s'.c.length ∧ 0 < s'.c.length := by
  have hF := h.F
  rw [h.c, h.S]
  generalize csMap collated (E.order (allC collated)) = m at hF
  cases m with
  | nil => cases hF
  | cons e m =>
      simp only [List.map_cons, addCommon] at hF
      cases hF' : s'.F with
      | nil => rw [hF'] at hF; cases hF
      | cons a l =>
          rw [hF'] at hF
          cases hF
          simp

theorem LinearRun.entry {E : AutoEnv} {rows : List SX} {s' : AutoState} {common : List SX}
    {collated : List (List AddComp)} (h : LinearRun E rows s' common collated) {i s : Nat}
    (hi : i < rows.length) (hs : s < s'.c.length) (hc : i < collated.length)
    (hk : i < common.length) (j : Nat) (I : Interp) (env : Leaf → ℝ) :
    (entry (s'.F.getD s []) i j).eval I env
      = (if s = 0 then common[i].eval I env else 0)
        + ((collated[i].filter fun a => a.c = s'.c.getD s (.num 0)).map fun a =>
            if j = 0 then a.f0.eval I env else a.f1.eval I env).sum := by
  have hF := h.F
  have hc' := h.c
  generalize csMap collated (E.order (allC collated)) = m at hF hc'
  have base : ∀ c : SX, (collated.map fun row => fEntry row c).getD i (.num 0, .num 0)
      = fEntry collated[i] c := by
    intro c; simp [List.getD, hc]
  have val : ∀ c : SX, ((if j = 0 then (fEntry collated[i] c).1 else (fEntry collated[i] c).2).eval
      I env) = ((collated[i].filter fun a => a.c = c).map fun a =>
            if j = 0 then a.f0.eval I env else a.f1.eval I env).sum := by
    intro c
    by_cases hj : j = 0
    · simp only [hj, if_true]
      exact foldl_add_eval _ _
    · simp only [hj, if_false]
      exact foldl_add_eval _ _
  rw [hc'] at hs ⊢
  cases m with
  | nil => simp at hs
  | cons e m =>
      simp only [List.map_cons, addCommon] at hF
      cases hF' : s'.F with
      | nil => rw [hF'] at hF; cases hF
      | cons a l =>
          rw [hF'] at hF
          cases hF
          cases s with
          | zero =>
              have hz : (List.zipWith (fun (e : SX × SX) f => (SX.bin .add e.1 f, SX.bin .add e.2 f))
                  (collated.map fun row => fEntry row e.2.1) common).getD i (.num 0, .num 0)
                  = (.bin .add (fEntry collated[i] e.2.1).1 common[i],
                     .bin .add (fEntry collated[i] e.2.1).2 common[i]) := by
                rw [List.getD, List.getElem?_eq_getElem (by simp [hc, hk])]
                simp
              simp only [Spec.entry, List.getD_cons_zero, hz, if_true, List.map_cons]
              have := val e.2.1
              by_cases hj : j = 0
              · simp only [hj, if_true] at this ⊢
                rw [add_comm, ← this]; rfl
              · simp only [hj, if_false] at this ⊢
                rw [add_comm, ← this]; rfl
          | succ s =>
              have hs' : s < m.length := by simpa using hs
              have e1 : (m.map fun e => collated.map fun row => fEntry row e.2.1).getD s []
                  = collated.map fun row => fEntry row m[s].2.1 := by simp [List.getD, hs']
              have e2 : (m.map fun e => e.2.1).getD s (.num 0) = m[s].2.1 := by
                simp [List.getD, hs']
              simp only [Spec.entry, List.getD_cons_succ, e1, e2, base, List.map_cons,
                Nat.add_one_ne_zero, if_false, zero_add]
              rw [← val]

/-- The vector field of the systems returned by `_reformulate_linear`. -/
theorem LinearRun.value {E : AutoEnv} {rows : List SX} {s' : AutoState} {common : List SX}
    {collated : List (List AddComp)} (h : LinearRun E rows s' common collated) (ho : SetOrder E)
    (h1 : OneEach rows) (hsd : NodesSound E rows) (hsh : NodesShared E rows)
    {I : Interp} {env : Leaf → ℝ} (hoff : ∀ c ∈ s'.c, c.eval I env ≠ 0) {i : Nat}
    (hi : i < rows.length) {js : List Nat}
    (hjs : ∀ s < s'.c.length,
      Active (s'.S.getD s []) ((s'.c.getD s (.num 0)).eval I env) (js.getD s 0)) :
    ((List.range s'.c.length).map fun s =>
      (Spec.entry (s'.F.getD s []) i (js.getD s 0)).eval I env).sum = rows[i].eval I env := by
  obtain ⟨hn, hcov, hS, -⟩ := h.keys ho h1 hsd hsh
  obtain ⟨-, hlS, hpos⟩ := h.length
  have hc : i < collated.length := by have := h.lenCollated; omega
  have hk : i < common.length := by have := h.lenCommon; omega
  -- the active column
  have col : ∀ s < s'.c.length,
      (js.getD s 0 = 0 ↔ 0 < (s'.c.getD s (.num 0)).eval I env) := by
    intro s hs
    obtain ⟨σ, h2, h3⟩ := hjs s hs
    have : s'.S.getD s [] = [1, -1] := by
      have hs' : s < s'.S.length := by omega
      rw [List.getD, List.getElem?_eq_getElem hs']
      exact hS _ (List.getElem_mem hs')
    rw [this] at h2
    match hh : js.getD s 0 with
    | 0 =>
        rw [hh] at h2
        simp at h2
        subst h2
        simp at h3
        simpa using h3
    | 1 =>
        rw [hh] at h2
        simp at h2
        subst h2
        simp at h3
        simp only [Nat.one_ne_zero, false_iff, not_lt]
        exact h3.le
    | n + 2 => rw [hh] at h2; simp at h2
  have step : ∀ s ∈ List.range s'.c.length,
      (Spec.entry (s'.F.getD s []) i (js.getD s 0)).eval I env
        = (if s = 0 then common[i].eval I env else 0)
          + (fun c => ((collated[i].filter fun a => a.c = c).map fun a =>
              if 0 < a.c.eval I env then a.f0.eval I env else a.f1.eval I env).sum)
            (s'.c.getD s (.num 0)) := by
    intro s hs
    have hs' := List.mem_range.1 hs
    rw [h.entry hi hs' hc hk]
    congr 2
    apply List.map_congr_left
    intro a ha
    simp only [List.mem_filter, decide_eq_true_eq] at ha
    rw [ha.2]
    by_cases hj : js.getD s 0 = 0
    · rw [if_pos hj, if_pos ((col s hs').1 hj)]
    · rw [if_neg hj, if_neg (mt (col s hs').2 hj)]
  rw [List.map_congr_left step, List.sum_map_add, sum_range_head _ hpos,
    map_range_getD s'.c (.num 0) (fun c => ((collated[i].filter fun a => a.c = c).map fun a =>
              if 0 < a.c.eval I env then a.f0.eval I env else a.f1.eval I env).sum),
    sum_groups _ _ hn _ (hcov _ (List.getElem_mem hc))]
  have hoff' : ∀ a ∈ collated[i], a.c.eval I env ≠ 0 :=
    fun a ha => hoff _ (hcov _ (List.getElem_mem hc) a ha)
  rw [← (collated_entry h1 hi (h.collatedGet i hi hc)).2 I env hoff',
    sumList_eval (h.commonGet i hi hk), ← components_eval (I := I) (env := env) rows[i],
    sum_filter_split (components rows[i]) checkSmooth]
  rfl

/-! Symbols -/

theorem rebuildNonlin_leaves (e : SX) (s : AutoState) :
    ∀ l ∈ (rebuildNonlin e s).1.leaves, l ∈ e.leaves ∨ ∃ n, l = .alpha n := by
  induction e generalizing s with
  | num q => intro l hl; simp [rebuildNonlin, SX.leaves] at hl
  | leaf l => intro l' hl; exact .inl hl
  | un op a ih =>
      intro l hl
      cases op with
      | sign =>
          simp [rebuildNonlin, SX.leaves, AutoState.fresh] at hl
          exact .inr ⟨_, hl⟩
      | neg => exact ih s l hl
      | other n => exact ih s l hl
  | bin op a b iha ihb =>
      intro l hl
      have two : ∀ l, (l ∈ (rebuildNonlin a s).1.leaves ∨
          l ∈ (rebuildNonlin b (rebuildNonlin a s).2).1.leaves) →
          l ∈ a.leaves ++ b.leaves ∨ ∃ n, l = .alpha n := by
        intro l hl
        rcases hl with h | h
        · exact (iha s l h).imp (fun h => List.mem_append_left _ h) id
        · exact (ihb _ l h).imp (fun h => List.mem_append_right _ h) id
      cases op with
      | fmax | fmin =>
          simp only [rebuildNonlin, SX.leaves, AutoState.fresh, List.mem_append, List.mem_singleton,
            List.not_mem_nil, false_or] at hl ⊢
          rcases hl with (rfl | h) | (rfl | h)
          all_goals first
            | exact .inr ⟨_, rfl⟩
            | exact .inl (.inl h)
            | exact .inl (.inr h)
      | add | sub | mul | other => exact two l (List.mem_append.1 hl)

theorem rebuildRows_leaves (rows : List SX) (s : AutoState) :
    ∀ r ∈ (rebuildRows rows s).1, ∀ l ∈ r.leaves, (∃ e ∈ rows, l ∈ e.leaves) ∨ ∃ n, l = .alpha n := by
  induction rows generalizing s with
  | nil => simp [rebuildRows]
  | cons e rows ih =>
      intro r hr l hl
      simp only [rebuildRows, List.mem_cons] at hr
      rcases hr with rfl | hr
      · exact (rebuildNonlin_leaves e s l hl).imp (fun h => ⟨e, by simp, h⟩) id
      · exact (ih _ r hr l hl).imp (fun ⟨e, he, h⟩ => ⟨e, by simp [he], h⟩) id

theorem components_leaves (e : SX) : ∀ t ∈ components e,
    (∀ l ∈ t.leaves, l ∈ e.leaves) ∧ ∀ n ∈ outer t, n ∈ outer e := by
  have self : ∀ e : SX, (∀ l ∈ e.leaves, l ∈ e.leaves) ∧ ∀ n ∈ outer e, n ∈ outer e :=
    fun e => ⟨fun _ h => h, fun _ h => h⟩
  induction e with
  | num q => intro t ht; simp [components] at ht; subst ht; exact self _
  | leaf l => intro t ht; simp [components] at ht; subst ht; exact self _
  | un op a ih =>
      intro t ht
      cases op with
      | neg =>
          simp only [components, List.mem_map] at ht
          obtain ⟨r, hr, rfl⟩ := ht
          exact ih r hr
      | sign => simp [components] at ht; subst ht; exact self _
      | other n => simp [components] at ht; subst ht; exact self _
  | bin op a b iha ihb =>
      intro t ht
      cases op with
      | add =>
          simp only [components, List.mem_append] at ht
          rcases ht with h | h
          · exact ⟨fun l hl => List.mem_append_left _ ((iha t h).1 l hl),
              fun n hn => by simp [outer, (iha t h).2 n hn]⟩
          · exact ⟨fun l hl => List.mem_append_right _ ((ihb t h).1 l hl),
              fun n hn => by simp [outer, (ihb t h).2 n hn]⟩
      | sub =>
          simp only [components, List.mem_append, List.mem_map] at ht
          rcases ht with h | ⟨r, h, rfl⟩
          · exact ⟨fun l hl => List.mem_append_left _ ((iha t h).1 l hl),
              fun n hn => by simp [outer, (iha t h).2 n hn]⟩
          · exact ⟨fun l hl => List.mem_append_right _ ((ihb r h).1 l hl),
              fun n hn => by simp only [outer, reduceCtorEq, or_self, if_false] at hn ⊢; simp [(ihb r h).2 n hn]⟩
      | mul | fmin | fmax | other =>
          simp [components] at ht; subst ht; exact self _

theorem rebuildAdditive_facts {e : SX} {ch : List SX} {c : Option SX} {S : Option (List Int)}
    (hr : rebuildAdditive e = .ok (ch, c, S)) :
    (∀ t ∈ ch, ∀ l ∈ t.leaves, l ∈ e.leaves) ∧ (∀ cc, c = some cc → ∃ n ∈ outer e, cc = switchOf n) ∧
    (∀ SS, S = some SS → SS = [1, -1]) := by
  induction e generalizing ch c S with
  | num q => cases hr; simp [SX.leaves]
  | leaf l => cases hr; simp
  | un op a ih =>
      have step : ∀ op : UnOp, op ≠ .sign →
          (do let (children, c, S) ← rebuildAdditive a
              Except.ok (ε := PyErr) (children.map (SX.un op), c, S)) = .ok (ch, c, S) →
          (∀ t ∈ ch, ∀ l ∈ t.leaves, l ∈ (SX.un op a).leaves) ∧
          (∀ cc, c = some cc → ∃ n ∈ outer (.un op a), cc = switchOf n) ∧
          (∀ SS, S = some SS → SS = [1, -1]) := by
        intro op hop hr
        cases hra : rebuildAdditive a with
        | error e => rw [hra] at hr; cases hr
        | ok r =>
            obtain ⟨ch', c', S'⟩ := r
            rw [hra] at hr
            cases hr
            obtain ⟨h1, h2, h3⟩ := ih hra
            refine ⟨?_, ?_, h3⟩
            · intro t ht
              rw [List.mem_map] at ht
              obtain ⟨t', ht', rfl⟩ := ht
              exact h1 t' ht'
            · simp only [outer, hop, if_false]
              exact h2
      cases op with
      | sign =>
          cases hr
          refine ⟨?_, ?_, ?_⟩
          · intro t ht l hl
            simp only [List.mem_cons, List.not_mem_nil, or_false] at ht
            rcases ht with rfl | rfl <;> simp [SX.leaves] at hl
          · intro cc hcc
            cases hcc
            exact ⟨.un .sign a, by simp [outer], rfl⟩
          · intro SS h; cases h; rfl
      | neg => exact step .neg (by simp) hr
      | other n => exact step (.other n) (by simp) hr
  | bin op a b iha ihb =>
      have step : ∀ op : BinOp, op ≠ .fmax ∧ op ≠ .fmin →
          (do let (lc, c1, S1) ← rebuildAdditive a
              let (rc, c2, S2) ← rebuildAdditive b
              Except.ok (ε := PyErr)
                (lc.flatMap fun l => rc.map fun r => SX.bin op l r, c1.or c2, S1.or S2))
            = .ok (ch, c, S) →
          (∀ t ∈ ch, ∀ l ∈ t.leaves, l ∈ (SX.bin op a b).leaves) ∧
          (∀ cc, c = some cc → ∃ n ∈ outer (.bin op a b), cc = switchOf n) ∧
          (∀ SS, S = some SS → SS = [1, -1]) := by
        intro op hop hr
        cases hra : rebuildAdditive a with
        | error e => rw [hra] at hr; cases hr
        | ok r =>
            obtain ⟨ch1, c1, S1⟩ := r
            rw [hra] at hr
            simp only [ok_bind] at hr
            cases hrb : rebuildAdditive b with
            | error e => rw [hrb] at hr; cases hr
            | ok r =>
                obtain ⟨ch2, c2, S2⟩ := r
                rw [hrb] at hr
                cases hr
                obtain ⟨a1, a2, a3⟩ := iha hra
                obtain ⟨b1, b2, b3⟩ := ihb hrb
                have ho : outer (.bin op a b) = outer a ++ outer b := by simp [outer, hop]
                refine ⟨?_, ?_, ?_⟩
                · intro t ht l hl
                  simp only [List.mem_flatMap, List.mem_map] at ht
                  obtain ⟨t1, h1, t2, h2, rfl⟩ := ht
                  simp only [SX.leaves, List.mem_append] at hl ⊢
                  exact hl.imp (a1 t1 h1 l) (b1 t2 h2 l)
                · intro cc hcc
                  rw [ho]
                  cases c1 with
                  | none =>
                      obtain ⟨n, hn, e⟩ := b2 cc (by simpa using hcc)
                      exact ⟨n, List.mem_append_right _ hn, e⟩
                  | some c' =>
                      obtain ⟨n, hn, e⟩ := a2 cc (by simpa using hcc)
                      exact ⟨n, List.mem_append_left _ hn, e⟩
                · intro SS h
                  cases S1 with
                  | none => exact b3 SS (by simpa using h)
                  | some S' => exact a3 SS (by simpa using h)
      cases op with
      | fmax =>
          cases hr
          refine ⟨?_, ?_, ?_⟩
          · intro t ht l hl
            simp only [List.mem_cons, List.not_mem_nil, or_false] at ht
            rcases ht with rfl | rfl <;> simp [SX.leaves, hl]
          · intro cc hcc
            cases hcc
            exact ⟨.bin .fmax a b, by simp [outer], rfl⟩
          · intro SS h; cases h; rfl
      | fmin => cases hr
      | add => exact step .add (by simp) hr
      | sub => exact step .sub (by simp) hr
      | mul => exact step .mul (by simp) hr
      | other n => exact step (.other n) (by simp) hr

theorem addComp_facts {id : Nat} {e : SX} {a : AddComp} (ha : addComp id e = .ok a) :
    (∀ l ∈ a.f0.leaves, l ∈ e.leaves) ∧ (∀ l ∈ a.f1.leaves, l ∈ e.leaves) ∧
    (∃ n ∈ outer e, a.c = switchOf n) ∧ a.S = [1, -1] := by
  unfold addComp at ha
  cases hr : rebuildAdditive e with
  | error e => rw [hr] at ha; cases ha
  | ok r =>
      obtain ⟨ch, c, S⟩ := r
      obtain ⟨h1, h2, h3⟩ := rebuildAdditive_facts hr
      rw [hr] at ha
      simp only [ok_bind] at ha
      cases c with
      | none => cases ha
      | some c =>
          cases S with
          | none => cases ha
          | some S =>
              match ch, ha with
              | f0 :: f1 :: _, ha =>
                  cases ha
                  exact ⟨h1 f0 (by simp), h1 f1 (by simp), h2 c rfl, h3 S rfl⟩

theorem foldl_add_leaves (l : List AddComp) (g : AddComp → SX) (e0 : SX) :
    ∀ x ∈ (l.foldl (fun acc a => SX.bin .add acc (g a)) e0).leaves,
      x ∈ e0.leaves ∨ ∃ a ∈ l, x ∈ (g a).leaves := by
  induction l generalizing e0 with
  | nil => intro x hx; exact .inl hx
  | cons a l ih =>
      intro x hx
      rcases ih _ x hx with h | ⟨b, hb, h⟩
      · rcases List.mem_append.1 h with h | h
        · exact .inl h
        · exact .inr ⟨a, by simp, h⟩
      · exact .inr ⟨b, by simp [hb], h⟩

theorem sumList_leaves {l : List SX} {e : SX} (h : sumList l = .ok e) :
    ∀ x ∈ e.leaves, ∃ t ∈ l, x ∈ t.leaves := by
  cases l with
  | nil => cases h
  | cons a l =>
      cases h
      induction l using List.reverseRecOn with
      | nil => intro x hx; exact ⟨a, by simp, hx⟩
      | append_singleton l b ih =>
          intro x hx
          rw [List.foldl_append] at hx
          rcases List.mem_append.1 hx with h | h
          · obtain ⟨t, ht, h'⟩ := ih x h
            refine ⟨t, ?_, h'⟩
            simp only [List.mem_cons, List.mem_append] at ht ⊢
            tauto
          · exact ⟨b, by simp, h⟩

/-- Symbols, switching functions and matrices of a model returned by `_reformulate_linear`. -/
theorem LinearRun.facts {E : AutoEnv} {rows : List SX} {s' : AutoState} {common : List SX}
    {collated : List (List AddComp)} (h : LinearRun E rows s' common collated) (ho : SetOrder E) :
    (∀ S ∈ s'.S, S = [1, -1]) ∧
    (∀ c ∈ s'.c, ∃ e ∈ rows, ∃ n ∈ outer e, c = switchOf n) ∧
    (∀ M ∈ s'.F, ∀ p ∈ M, ∀ l, l ∈ p.1.leaves ∨ l ∈ p.2.leaves → ∃ e ∈ rows, l ∈ e.leaves) := by
  have entry : ∀ row ∈ collated, ∀ a ∈ row, ∃ e ∈ rows,
      (∀ l ∈ a.f0.leaves, l ∈ e.leaves) ∧ (∀ l ∈ a.f1.leaves, l ∈ e.leaves) ∧
      (∃ n ∈ outer e, a.c = switchOf n) ∧ a.S = [1, -1] := by
    intro row hr a ha
    obtain ⟨i, hi, rfl⟩ := List.mem_iff_getElem.1 hr
    have hi' : i < rows.length := by have := h.lenCollated; omega
    obtain ⟨hlen, hget⟩ := collate_get (h.collatedGet i hi' hi)
    obtain ⟨j, hj, rfl⟩ := List.mem_iff_getElem.1 ha
    have hj' : j < (nonsmoothOf rows[i]).length := by omega
    obtain ⟨a1, a2, ⟨n, hn, a3⟩, a4⟩ := addComp_facts (hget j hj' hj)
    have hcomp := components_leaves rows[i] _ (List.mem_filter.1 (List.getElem_mem hj')).1
    exact ⟨rows[i], List.getElem_mem hi', fun l hl => hcomp.1 l (a1 l hl),
      fun l hl => hcomp.1 l (a2 l hl), ⟨n, hcomp.2 n hn, a3⟩, a4⟩
  have inv := foldl_insertKey (collated.flatMap fun row => (E.order (allC collated)).flatMap
      fun c => row.filter fun a => a.c = c) (by
    intro a ha
    obtain ⟨row, hr, ha'⟩ := (h.mem ho).1 ha
    obtain ⟨e, _, _, _, _, h4⟩ := entry row hr a ha'
    exact h4)
  have fe : ∀ row ∈ collated, ∀ c l, l ∈ (fEntry row c).1.leaves ∨ l ∈ (fEntry row c).2.leaves →
      ∃ e ∈ rows, l ∈ e.leaves := by
    intro row hr c l hl
    rcases hl with hl | hl
    · rcases foldl_add_leaves _ _ _ l hl with h | ⟨a, ha, h⟩
      · simp [SX.leaves] at h
      · obtain ⟨e, he, h1, -⟩ := entry row hr a (List.mem_filter.1 ha).1
        exact ⟨e, he, h1 l h⟩
    · rcases foldl_add_leaves _ _ _ l hl with h | ⟨a, ha, h⟩
      · simp [SX.leaves] at h
      · obtain ⟨e, he, -, h1, -⟩ := entry row hr a (List.mem_filter.1 ha).1
        exact ⟨e, he, h1 l h⟩
  have cm : ∀ f ∈ common, ∀ l ∈ f.leaves, ∃ e ∈ rows, l ∈ e.leaves := by
    intro f hf l hl
    obtain ⟨i, hi, rfl⟩ := List.mem_iff_getElem.1 hf
    have hi' : i < rows.length := by have := h.lenCommon; omega
    obtain ⟨t, ht, hl'⟩ := sumList_leaves (h.commonGet i hi' hi) l hl
    exact ⟨rows[i], List.getElem_mem hi', (components_leaves _ t (List.mem_filter.1 ht).1).1 l hl'⟩
  refine ⟨?_, ?_, ?_⟩
  · intro S hS
    rw [h.S, List.mem_map] at hS
    obtain ⟨e, he, rfl⟩ := hS
    exact (inv.from' e he).1
  · intro c hc
    rw [h.c, List.mem_map] at hc
    obtain ⟨e, he, rfl⟩ := hc
    obtain ⟨-, a, ha, -, h3⟩ := inv.from' e he
    obtain ⟨row, hr, ha'⟩ := (h.mem ho).1 ha
    obtain ⟨e', he', -, -, ⟨n, hn, h4⟩, -⟩ := entry row hr a ha'
    exact ⟨e', he', n, hn, h3.trans h4⟩
  · have hF := h.F
    generalize csMap collated (E.order (allC collated)) = m at hF
    cases m with
    | nil => cases hF
    | cons e m =>
        simp only [List.map_cons, addCommon] at hF
        intro M hM p hp l hl
        have hF' := Except.ok.inj hF
        rw [← hF', List.mem_cons] at hM
        rcases hM with rfl | hM
        · rw [List.mem_iff_getElem] at hp
          obtain ⟨i, hi, rfl⟩ := hp
          simp only [List.length_zipWith, List.length_map, lt_min_iff] at hi
          simp only [List.getElem_zipWith, List.getElem_map, SX.leaves, List.mem_append] at hl
          rcases hl with (hl | hl) | (hl | hl)
          · exact fe _ (List.getElem_mem hi.1) _ l (.inl hl)
          · exact cm _ (List.getElem_mem hi.2) l hl
          · exact fe _ (List.getElem_mem hi.1) _ l (.inr hl)
          · exact cm _ (List.getElem_mem hi.2) l hl
        · rw [List.mem_map] at hM
          obtain ⟨e', -, rfl⟩ := hM
          rw [List.mem_map] at hp
          obtain ⟨row, hr, rfl⟩ := hp
          exact fe row hr _ l hl

end Nosnoc
