import Verif.Spec.Honest
import Verif.Props.Params
/-
The parameter symbols are distinct from each other and from the variables.
-/
namespace Nosnoc

variable {colloc : IrkScheme → Nat → List ℝ} {o : Opts} {um : UserModel} {uo : Option UserOcp}
  {po : PreOpts} {m : PreModel} {oc : PreOcp} {P : Problem} {S : Solver} {lam00 w p : List ℝ}

/-- What a parameter symbol looks like. -/
def IsParam : Sym → Prop
  | .pStage _ _ => True
  | .sigma => True
  | .tau => True
  | .lam00 _ _ _ => True
  | .x0 _ => True
  | _ => False

theorem nodup_lam00Row (f : Fam2) : (lam00Row po m.dims f).Nodup := by
  unfold lam00Row
  rw [List.nodup_flatMap]
  refine ⟨fun s _ => nodup_blk fun a b hab => by injection hab, ?_⟩
  refine (List.nodup_range).imp fun {a b} hne => ?_
  intro t ht ht'
  simp only [blk, List.mem_map] at ht ht'
  obtain ⟨i, -, rfl⟩ := ht
  obtain ⟨j, -, hj⟩ := ht'
  injection hj with _ h2
  exact hne h2.symm

theorem mem_lam00Row {f : Fam2} {t : Sym} (ht : t ∈ lam00Row po m.dims f) :
    ∃ s i, t = .lam00 f s i := by
  unfold lam00Row at ht
  simp only [List.mem_flatMap, blk, List.mem_map] at ht
  obtain ⟨s, -, i, -, rfl⟩ := ht
  exact ⟨s, i, rfl⟩

theorem Setup.nodup_p (h : Setup colloc o um uo po m oc P) : P.p.Nodup := by
  rw [p_eq h]
  unfold pHead
  simp only [List.nodup_append, List.mem_append, List.mem_flatMap, blk, List.mem_map]
  refine ⟨⟨⟨?_, by simp, ?_⟩, ⟨⟨nodup_lam00Row _, nodup_lam00Row _, ?_⟩, nodup_lam00Row _, ?_⟩, ?_⟩,
    nodup_blk fun a b hab => by injection hab, ?_⟩
  · rw [List.nodup_flatMap]
    refine ⟨fun s _ => nodup_blk fun a b hab => by injection hab, ?_⟩
    refine (List.nodup_range).imp fun {a b} hne => ?_
    intro t ht ht'
    simp only [List.mem_map] at ht ht'
    obtain ⟨i, -, rfl⟩ := ht
    obtain ⟨j, -, hj⟩ := ht'
    injection hj with h2
    exact hne h2.symm
  · rintro _ ⟨k, -, i, -, rfl⟩ b hb hc
    subst hc
    simp at hb
  · intro a ha b hb hc
    obtain ⟨_, _, rfl⟩ := mem_lam00Row ha
    obtain ⟨_, _, rfl⟩ := mem_lam00Row hb
    cases hc
  · rintro a (ha | ha) b hb hc
    all_goals
      obtain ⟨_, _, rfl⟩ := mem_lam00Row ha
      obtain ⟨_, _, rfl⟩ := mem_lam00Row hb
      cases hc
  · rintro a ha b hb hc
    subst hc
    have : ∃ f s i, a = .lam00 f s i := by
      rcases hb with (hb | hb) | hb <;> obtain ⟨s, i, e⟩ := mem_lam00Row hb <;> exact ⟨_, s, i, e⟩
    obtain ⟨f, s, i, rfl⟩ := this
    rcases ha with ⟨k, -, i, -, hc⟩ | ha
    · cases hc
    · simp at ha
  · rintro a ha b ⟨i, -, rfl⟩ hc
    subst hc
    rcases ha with (⟨k, -, i, -, hc⟩ | ha) | ((hb | hb) | hb)
    · cases hc
    · simp at ha
    all_goals
      obtain ⟨s, i, e⟩ := mem_lam00Row hb
      cases e

theorem Setup.isParam (h : Setup colloc o um uo po m oc P) {t : Sym} (ht : t ∈ P.p) : IsParam t := by
  rw [p_eq h] at ht
  unfold pHead at ht
  simp only [List.mem_append, List.mem_flatMap, blk, List.mem_map] at ht
  rcases ht with ((⟨k, -, i, -, rfl⟩ | ht) | ((hb | hb) | hb)) | ⟨i, -, rfl⟩
  · trivial
  · simp at ht
    rcases ht with rfl | rfl <;> trivial
  · obtain ⟨s, i, rfl⟩ := mem_lam00Row hb; trivial
  · obtain ⟨s, i, rfl⟩ := mem_lam00Row hb; trivial
  · obtain ⟨s, i, rfl⟩ := mem_lam00Row hb; trivial
  · trivial

theorem Setup.not_param (h : Setup colloc o um uo po m oc P) {t : Sym} (ht : t ∈ P.form.w) :
    ¬ IsParam t := by
  intro hp
  rcases (C04_variables h t).2 ht with hv | ⟨-, ⟨k, e, i, rfl⟩ | ⟨i, rfl⟩⟩
  · cases t <;> first | exact hp | exact hv
  · exact hp
  · exact hp

theorem lookup_zip_right {s : Sym} {ws ps : List Sym} {w p : List ℝ} (hl : w.length = ws.length)
    (hs : s ∉ ws) : ((ws ++ ps).zip (w ++ p)).lookup s = (ps.zip p).lookup s := by
  induction ws generalizing w with
  | nil =>
    cases w with
    | nil => rfl
    | cons a l => simp at hl
  | cons a t ih =>
    cases w with
    | nil => simp at hl
    | cons b v =>
      simp only [List.cons_append, List.zip_cons_cons, List.lookup_cons]
      have hne : s ≠ a := fun hc => hs (hc ▸ List.mem_cons_self)
      rw [beq_false_of_ne hne]
      exact ih (by simpa using hl) fun hc => hs (List.mem_cons_of_mem _ hc)

/-- The assignment `P.point w p` gives the `i`-th parameter the value `p[i]`. -/
theorem Setup.point_p (h : Setup colloc o um uo po m oc P) (hw : w.length = P.form.w.length)
    (hp : p.length = P.p.length) : P.p.map (P.point w p) = p := by
  apply List.ext_getElem?
  intro i
  rw [List.getElem?_map]
  by_cases hi : i < P.p.length
  · have hs := List.getElem?_eq_getElem hi
    rw [hs]
    show some (P.point w p P.p[i]) = _
    unfold Problem.point
    rw [lookup_zip_right hw fun hc => h.not_param hc (h.isParam (List.getElem_mem hi))]
    have := lookup_zip_append (ps := []) (p := []) hp h.nodup_p hi hs
    rw [List.append_nil, List.append_nil] at this
    rw [this, List.getElem?_eq_getElem (by omega)]
    rfl
  · rw [List.getElem?_eq_none (by omega), List.getElem?_eq_none (by omega)]
    rfl

/-- The numbers handed to the NLP solver for the parameters are, symbol by symbol, those the symbols
stand for (except possibly the initial multipliers). -/
theorem Setup.pValues_symbols (h : Setup colloc o um uo po m oc P) (hi : Inv po m P S)
    (hx : S.m.x0.length = um.nX) {lam : List ℝ} (hl : lam.length
      = (lam00Row po m.dims .lam ++ lam00Row po m.dims .lamN ++ lam00Row po m.dims .lamP).length)
    {sigma tau : ℝ} {env : Env} (he : P.p.map env = S.pValues lam sigma tau) {t : Sym} (ht : t ∈ P.p)
    (hn : ¬ IsLam00 t) : env t = paramVal um S sigma tau t := by
  have hfl := flatten_table hi.pLen hi.pRow
  rw [p_eq h] at he ht
  unfold Solver.pValues at he
  rw [List.map_append, List.map_append] at he
  obtain ⟨e12, e3⟩ := List.append_inj' he (by simp [hx, length_blk, h.dims.1])
  obtain ⟨e1, -⟩ := List.append_inj' e12 (by simp [hl])
  unfold pHead at e1
  rw [List.map_append] at e1
  obtain ⟨e0, es⟩ := List.append_inj' e1 (by simp)
  have key : ∀ t ∈ (List.range po.nStages).flatMap (fun k => blk (m.dims.nPtv + m.dims.nPgl) (.pStage k)),
      env t = paramVal um S sigma tau t := by
    apply List.map_inj_left.1
    rw [e0, hfl, List.map_flatMap]
    simp only [blk, List.map_map]
    rfl
  have keyx : ∀ t ∈ blk m.dims.nX .x0, env t = paramVal um S sigma tau t := by
    apply List.map_inj_left.1
    rw [e3, h.dims.1, ← hx]
    simp only [blk, List.map_map]
    exact (map_getD_range _).symm
  simp only [List.map_cons, List.map_nil, List.cons.injEq, and_true] at es
  unfold pHead at ht
  rw [List.mem_append, List.mem_append, List.mem_append] at ht
  rcases ht with ((ht | ht) | ht) | ht
  · exact key t ht
  · simp at ht
    rcases ht with rfl | rfl
    · exact es.1
    · exact es.2
  · exfalso
    rw [List.mem_append, List.mem_append] at ht
    rcases ht with (hb | hb) | hb <;> obtain ⟨s, i, rfl⟩ := mem_lam00Row hb <;> exact hn trivial
  · exact keyx t ht

end Nosnoc
