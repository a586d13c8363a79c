import Verif.Props.Honest
import Verif.Props.ActiveSet
import Verif.Props.Schedule
import Verif.Witness.Const
/-
An exact NLP solver, and a family of problems it always solves.
-/
namespace Nosnoc

open Classical in
/-- An NLP solver that returns a feasible point if there is one, and reports failure otherwise. -/
noncomputable def exactOracle (P : Problem) : Oracle where
  sol log := match log.getLast? with
    | none => ⟨[], "", 0, 0, 0⟩
    | some c =>
        if h : ∃ x : List ℝ, x.length = c.x0.length ∧ Within x c.lbx c.ubx ∧
            Within (P.form.g.map fun q => q (P.point x c.p)) c.lbg c.ubg
        then ⟨h.choose, "Solve_Succeeded", 0, 0, 0⟩
        else ⟨c.x0, "Infeasible_Problem_Detected", 0, 0, 0⟩
  len log c := by
    simp only [List.getLast?_concat]
    split
    · rename_i h
      exact h.choose_spec.1
    · rfl

theorem exactOracle_exact (P : Problem) : (exactOracle P).Exact P := by
  intro log c hs
  unfold exactOracle at hs ⊢
  simp only [List.getLast?_concat] at hs ⊢
  split at hs
  · rename_i h
    rw [dif_pos h]
    exact h.choose_spec.2
  · simp [acceptedStatus] at hs

theorem exactOracle_succeeds (P : Problem) {log : List NlpCall} {c : NlpCall} {x : List ℝ}
    (h1 : x.length = c.x0.length) (h2 : Within x c.lbx c.ubx)
    (h3 : Within (P.form.g.map fun q => q (P.point x c.p)) c.lbg c.ubg) :
    ((exactOracle P).sol (log ++ [c])).status = "Solve_Succeeded" := by
  unfold exactOracle
  simp only [List.getLast?_concat]
  rw [dif_pos ⟨x, h1, h2, h3⟩]

section
variable {S : SMat} {c : Nat → ℝ} {pss : PssMode} {po : PreOpts} {m : PreModel} {oc : PreOcp}
  {P : Problem} {T : Solver} {q : SolveResult}

theorem const_none {pol : Bool} (hS : S.rows ≠ 1) :
    ∃ po m oc P, SetupEx oneColloc (constOpts pss false pol) (constModel S c) none po m oc P ∧
      ∀ (r : Nat), r < S.rows → (∀ i < S.rows, constG S c r ≤ constG S c i) →
        ∀ (y σ τ : ℝ) (l : Fam2 → Nat → Nat → ℝ), 0 ≤ σ →
          P.form.Feasible (constEnvP pss S c r y σ τ l) := by
  obtain ⟨po, m, oc, P, h, hrbe, hA⟩ := const_setup (pss := pss) (c := c) hS
  refine ⟨po, m, oc, _, ⟨h.toSetup.toNone, rfl, by simp [UserOcp.trivial]⟩, ?_⟩
  intro r hr hmin y σ τ l hσ
  exact const_feasibleP h hrbe hA hr hmin hσ fun hc => (by cases hc)

/-- Every NLP of the family is solved. -/
theorem const_success (h : SetupEx oneColloc (constOpts pss) (constModel S c) none po m oc P)
    (hf : ∃ r, ∀ (y σ τ : ℝ) (l : Fam2 → Nat → Nat → ℝ), 0 ≤ σ →
      P.form.Feasible (constEnvP pss S c r y σ τ l))
    (hT : Reachable oneColloc (constOpts pss) (constModel S c) none (exactOracle P) T)
    (hok : (T.solve (exactOracle P)).2 = .ok q) : q.status = .success := by
  obtain ⟨r, hf⟩ := hf
  have h' := h.toSetup
  have hi := hT.inv h'
  obtain ⟨hr, S1, lam00, hini⟩ := ready_of_ok h' hi hok
  obtain ⟨sigma, tau, log, d, hlog, hlg, hug, hp, hb, hn, -, hwl⟩ := last_call h' hT hr hok hini
  obtain ⟨hw, hst⟩ := C51_status _ h' hT hr hok
  obtain ⟨p0, -, -, hv⟩ := initialize_val h' hi hr.x0 hini
  have hll := lam00List_length h' T.m.x0 m.z0 p0
  rw [← hv] at hll
  have hpl : d.p.length = P.p.length := by
    rw [hp, pValues_length h' hi hr.x0 hll, hi.p]
  obtain ⟨k, -, hs, -⟩ := hn rfl
  have hσ : 0 ≤ sigma := by
    rw [hs]
    exact (sigmaAt_pos (by norm_num [constOpts, Opts.default]) (by norm_num [constOpts, Opts.default]) k).le
  -- the point
  let env0 := P.point q.wSol d.p
  let env := constEnvP pss S c r (env0 (.x0 0)) sigma tau fun f s i => env0 (.lam00 f s i)
  have hpm := h'.point_p hwl hpl
  have hpar : ∀ t ∈ P.p, env t = env0 t := by
    intro t ht
    have key : ¬ IsLam00 t → env0 t = paramVal (constModel S c) T sigma tau t := fun hl =>
      h'.pValues_symbols hi hr.x0 hll (hpm.trans hp) ht hl
    have ht' := ht
    rw [p_eq h'] at ht'
    unfold pHead at ht'
    simp only [List.mem_append, List.mem_flatMap, blk, List.mem_map] at ht'
    rcases ht' with ((⟨k, -, i, hi', rfl⟩ | ht') | ((hb | hb) | hb)) | ⟨i, hi', rfl⟩
    · rw [h'.dims.2.2.2.2.1, h'.dims.2.2.2.2.2.1] at hi'
      simp [constModel] at hi'
    · simp at ht'
      rcases ht' with rfl | rfl
      · exact (key fun hc => hc).symm
      · exact (key fun hc => hc).symm
    · obtain ⟨s, i, rfl⟩ := mem_lam00Row hb; rfl
    · obtain ⟨s, i, rfl⟩ := mem_lam00Row hb; rfl
    · obtain ⟨s, i, rfl⟩ := mem_lam00Row hb; rfl
    · rw [h'.dims.1] at hi'
      have : i = 0 := by simpa [constModel] using hi'
      subst this
      rfl
  have hfe : P.form.Feasible env := hf _ _ _ _ hσ
  have hlen : (P.form.w.map env).length = P.form.w.length := by simp
  have hpt : ∀ s ∈ P.form.w, P.point (P.form.w.map env) d.p s = env s :=
    List.map_inj_left.1 (h'.point_w hlen)
  have hpt' : ∀ s ∈ P.p, P.point (P.form.w.map env) d.p s = env s := by
    intro s hs
    rw [hpar s hs]
    exact List.map_inj_left.1 ((h'.point_p hlen hpl).trans hpm.symm) s hs
  have hcl := (C84_closed h' h.sound hpt hpt').1
  refine hst.2 ?_
  rw [hlog, exactOracle_succeeds P (x := P.form.w.map env)]
  · simp
  · rw [hlen, ← hwl, hw, hlog]
    exact ((exactOracle P).len log d)
  · intro i x hx
    rw [List.getElem?_map, Option.map_eq_some_iff] at hx
    obtain ⟨t, ht, rfl⟩ := hx
    rcases hb i t ht with ⟨e1, e2⟩ | ⟨-, hc | hc, -⟩
    · obtain ⟨b1, b2, -⟩ := C04_bounds_and_guess h'
      rw [e1, e2]
      have := fun l u hl hu => feasible_bounds hfe ht (l := l) (u := u) hl hu
      constructor
      · intro l hl
        exact (this l _ hl (by rw [b2, List.getElem?_map, ht]; rfl)).1
      · intro u hu
        exact (this _ u (by rw [b1, List.getElem?_map, ht]; rfl) hu).2
    · cases hc
    · cases hc
  · intro i x hx
    rw [List.getElem?_map, Option.map_eq_some_iff] at hx
    obtain ⟨g, hg, rfl⟩ := hx
    rw [hcl g (List.mem_of_getElem? hg), hlg, hug]
    obtain ⟨hl1, hl2, -⟩ := C05_constraints_aligned h'
    have hi' := (List.getElem?_eq_some_iff.1 hg).1
    have hmem := hfe.2
    have key : ∀ l u, P.form.lbg[i]? = some l → P.form.ubg[i]? = some u →
        l ≤ ((g env : ℝ) : EReal) ∧ ((g env : ℝ) : EReal) ≤ u := by
      intro l u hl hu
      refine hmem (g, l, u) ?_
      rw [List.mem_iff_getElem?]
      exact ⟨i, by simp [List.getElem?_zip_eq_some, hg, hl, hu]⟩
    constructor
    · intro l hl
      exact (key l _ hl (List.getElem?_eq_getElem (by omega))).1
    · intro u hu
      exact (key _ u (List.getElem?_eq_getElem (by omega)) hu).2

end
end Nosnoc
