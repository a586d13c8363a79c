import Verif.Props.PolishFail
import Verif.Props.Complete
/-
An exact NLP solver that returns a prescribed point whenever that point solves the NLP.
-/
namespace Nosnoc

open Classical in
/-- Returns the point `f p` (a function of the parameters of the call) if it solves the NLP; otherwise any
solution, if there is one. -/
noncomputable def wishOracle (P : Problem) (f : List ℝ → List ℝ) : Oracle where
  sol log := match log.getLast? with
    | none => ⟨[], "", 0, 0, 0⟩
    | some c =>
        if (f c.p).length = c.x0.length ∧ Within (f c.p) c.lbx c.ubx ∧
            Within (P.form.g.map fun q => q (P.point (f c.p) c.p)) c.lbg c.ubg
        then ⟨f c.p, "Solve_Succeeded", 0, 0, 0⟩
        else (exactOracle P).sol log
  len log c := by
    simp only [List.getLast?_concat]
    split
    · rename_i h
      exact h.1
    · exact (exactOracle P).len log c

theorem wishOracle_exact (P : Problem) (f : List ℝ → List ℝ) : (wishOracle P f).Exact P := by
  intro log c hs
  unfold wishOracle at hs ⊢
  simp only [List.getLast?_concat] at hs ⊢
  split
  · rename_i h
    exact h.2
  · rename_i h
    rw [if_neg h] at hs
    exact exactOracle_exact P log c hs

theorem wishOracle_complete (P : Problem) (f : List ℝ → List ℝ) : (wishOracle P f).Complete P := by
  intro log c hs
  unfold wishOracle
  simp only [List.getLast?_concat]
  split
  · simp [acceptedStatus]
  · exact exactOracle_complete P log c hs

theorem wishOracle_answer (P : Problem) (f : List ℝ → List ℝ) {log : List NlpCall} {c : NlpCall}
    (h1 : (f c.p).length = c.x0.length) (h2 : Within (f c.p) c.lbx c.ubx)
    (h3 : Within (P.form.g.map fun q => q (P.point (f c.p) c.p)) c.lbg c.ubg) :
    ((wishOracle P f).sol (log ++ [c])).x = f c.p := by
  unfold wishOracle
  simp only [List.getLast?_concat]
  rw [if_pos ⟨h1, h2, h3⟩]

section
variable {colloc : IrkScheme → Nat → List ℝ} {o : Opts} {um : UserModel} {uo : Option UserOcp}
  {po : PreOpts} {m : PreModel} {oc : PreOcp} {P : Problem} {f : List ℝ → List ℝ} {S : Solver}
  {r : SolveResult}

theorem withSigma_w (h : Setup colloc o um uo po m oc P) (env : Env) (σ τ : ℝ) :
    P.form.w.map (withSigma env σ τ) = P.form.w.map env := by
  refine List.map_congr_left fun t ht => ?_
  rcases (C04_variables h t).2 ht with hv | ⟨-, ⟨k, e, i, rfl⟩ | ⟨i, rfl⟩⟩
  · cases t <;> first | rfl | exact hv.elim
  · rfl
  · rfl

/-- Polishing with this NLP solver, when the prescribed point is exact and clean. -/
theorem wish_polish (h : SetupEx colloc o um uo po m oc P)
    (hS : Reachable colloc o um uo (wishOracle P f) S)
    (hok : (S.solve (wishOracle P f)).2 = .ok r)
    (hpol : o.polish = true) (hmode : o.pss = .stewart ∨ um.nSys ≤ 1) (htol : o.compTol ≤ 1 / 10)
    (hfix : o.fixActiveSetFe0 = false) (hs0 : 0 < o.sigma0) (hsl : 0 < o.slope)
    {env : Env} (hfe : ∀ σ τ, 0 ≤ σ → P.form.Feasible (withSigma env σ τ))
    (hpar : ∀ σ τ, ∀ t ∈ P.p, withSigma env σ τ t = paramVal um S σ τ t)
    (hf : ∀ σ τ, f (P.p.map (withSigma env σ τ)) = P.form.w.map env)
    (hclean : ∀ t ∈ P.form.w, IsMultiplier t → env t = 0 ∨ env t = 1 ∨
      (10 * o.compTol ≤ env t ∧ 10 * o.compTol ≤ |env t - 1|)) :
    r.status = .success ∧ r.wSol = P.form.w.map env := by
  have h' := h.toSetup
  have hi := hS.inv h'
  obtain ⟨hr, S1, lam00', hini⟩ := ready_of_ok h' hi hok
  obtain ⟨lam00, w0, lbx, ubx, n, calls, sols, c, hini', hh, hlx, hpc, hlog, hw, hwl, hst, -, -, hall, hbd, -⟩ :=
    C57_polishing_partial _ h' hS hr hpol hok
  have hlam : lam00' = lam00 := by rw [hini] at hini'; exact Except.ok.inj hini'
  subst hlam
  obtain ⟨k, rfl⟩ : ∃ k, n = k + 1 := ⟨n - 1, by have := hh.pos; omega⟩
  rw [Nat.add_sub_cancel] at hlx hpc
  have hsig : ∀ k, sigmaAt S.o.toOpts k = sigmaAt o k := by
    intro k
    rw [hi.opts, h'.opts]
    induction k with
    | zero => rfl
    | succ k ih => rw [sigmaAt_succ, ih, sigmaAt_succ]; rfl
  have hpv : ∀ σ τ, S.m.pVal.flatten ++ [σ, τ] ++ lam00' ++ S.m.x0 = P.p.map (withSigma env σ τ) := by
    intro σ τ
    have := pValues_paramVal h' hi hr.x0 hini hmode σ τ
    rw [this, hi.p]
    exact (List.map_congr_left (hpar σ τ)).symm
  have hlen : ∀ σ τ, (f (P.p.map (withSigma env σ τ))).length = P.form.w.length := fun σ τ => by
    rw [hf, List.length_map]
  -- the last homotopy solution
  have hx : (sols k).x = P.form.w.map env := by
    have hans := hh.answer k (by omega)
    rw [List.range_succ, List.map_append, ← List.append_assoc, List.map_singleton] at hans
    have hp := hh.params k (by omega)
    rw [hsig, hpv] at hp
    obtain ⟨g1, g2, g3, g4⟩ := hh.bounds k (by omega)
    have hb : ∀ (i : Nat) t, P.form.w[i]? = some t →
        (calls k).lbx[i]? = P.form.lbw[i]? ∧ (calls k).ubx[i]? = P.form.ubw[i]? := by
      intro i t ht
      rw [g1, g2, ← hi.lbw, ← hi.ubw]
      refine hbd i t (by rw [hi.w]; exact ht) fun hc => ?_
      have := hc.1
      rw [hi.opts, h'.opts] at this
      exact absurd (hfix.symm.trans this) (by decide)
    have hx0 : (calls k).x0.length = P.form.w.length := by
      rw [← hi.w, ← hlx, hans]
      exact (Oracle.len _ _ _).symm
    obtain ⟨w1, w2⟩ := within_of_feasible h' h.sound hp (by rw [g3, hi.prob]) (by rw [g4, hi.prob])
      (fun i t ht => .inl (hb i t ht)) (hfe _ _ (sigmaAt_pos hsl hs0 k).le)
    rw [withSigma_w h'] at w1 w2
    have hfp : f (calls k).p = P.form.w.map env := by rw [hp, hf]
    rw [hans, wishOracle_answer P f (by rw [hfp, hx0, List.length_map]) (by rw [hfp]; exact w1)
      (by rw [hfp]; exact w2), hfp]
  have hsucc : r.status = .success := by
    refine C101_polishing_succeeds_partial h hS (wishOracle_complete P f) hok hpol hmode htol
      (env := withSigma env 0 0) (hfe 0 0 le_rfl) (hpar 0 0) ?_ ?_
    · rw [hall, List.range_succ, List.map_append, ← List.cons_append, List.map_singleton,
        List.getLast?_concat, hx, withSigma_w h']
    · intro t ht hm
      have : withSigma env 0 0 t = env t := by
        cases t <;> first | rfl | exact hm.elim
      rw [this]
      exact hclean t ht hm
  refine ⟨hsucc, ?_⟩
  rw [hx, ← withSigma_w h' env 0 0] at hpc
  obtain ⟨hp, w1, w2⟩ := polish_within h hS hr.x0 hini hmode htol (hfe 0 0 le_rfl) (hpar 0 0)
    (fun t ht hm => by
      have : withSigma env 0 0 t = env t := by
        cases t <;> first | rfl | exact hm.elim
      rw [this]
      exact hclean t ht hm) hpc
  have hst1 := Nat.pos_of_ne_zero h'.built.ok.primal.stages
  rw [h'.e_nStages] at hst1
  obtain ⟨j, hj⟩ : ∃ k, o.nStages = k + 1 := ⟨o.nStages - 1, by omega⟩
  have hfp : f c.p = P.form.w.map (withSigma env 0 0) := by rw [hp, hf, withSigma_w h']
  rw [hw, hlog, hj, List.replicate_succ', ← List.append_assoc,
    wishOracle_answer P f (by rw [hfp, hpc.x0]) (by rw [hfp]; exact w1) (by rw [hfp]; exact w2), hfp,
    withSigma_w h']

/-- Solving without polishing with this NLP solver, when the prescribed point is feasible for all homotopy
parameters. -/
theorem wish_plain (h : SetupEx colloc o um uo po m oc P)
    (hS : Reachable colloc o um uo (wishOracle P f) S)
    (hok : (S.solve (wishOracle P f)).2 = .ok r)
    (hpol : o.polish = false) (hmode : o.pss = .stewart ∨ um.nSys ≤ 1)
    (hfix : o.fixActiveSetFe0 = false) (hs0 : 0 < o.sigma0) (hsl : 0 < o.slope)
    {env : Env} (hfe : ∀ σ τ, 0 ≤ σ → P.form.Feasible (withSigma env σ τ))
    (hpar : ∀ σ τ, ∀ t ∈ P.p, withSigma env σ τ t = paramVal um S σ τ t)
    (hf : ∀ σ τ, f (P.p.map (withSigma env σ τ)) = P.form.w.map env) :
    r.status = .success ∧ r.wSol = P.form.w.map env := by
  have h' := h.toSetup
  have hi := hS.inv h'
  obtain ⟨hr, S1, lam00, hini⟩ := ready_of_ok h' hi hok
  obtain ⟨sigma, tau, log, d, hlog, hlg, hug, hp, -, hn, -, hwl⟩ := last_call h' hS hr hok hini
  obtain ⟨hw, -⟩ := C51_status _ h' hS hr hok
  obtain ⟨k, -, rfl, rfl⟩ := hn hpol
  have hF : ∀ t, ¬ S.FixedTheta um t := fun t hc => by
    have := hc.1
    rw [hi.opts, h'.opts] at this
    exact absurd (hfix.symm.trans this) (by decide)
  refine ⟨C100_feasible_succeeds_partial h hS (wishOracle_complete P f) hok hpol hmode fun k =>
    ⟨withSigma env _ _, hfe _ _ (sigmaAt_pos hsl hs0 k).le, hpar _ _, fun t _ hc => absurd hc (hF t)⟩, ?_⟩
  have hpm : d.p = P.p.map (withSigma env (sigmaAt o k) (min (sigmaAt o k ^ (3 / 2 : ℝ)) (sigmaAt o k))) := by
    rw [hp]
    have := pValues_paramVal h' hi hr.x0 hini hmode (sigmaAt o k)
      (min (sigmaAt o k ^ (3 / 2 : ℝ)) (sigmaAt o k))
    unfold Solver.pValues
    rw [this, hi.p]
    exact (List.map_congr_left (hpar _ _)).symm
  obtain ⟨w1, w2⟩ := within_of_feasible h' h.sound hpm hlg hug
    (fun i t ht => .inl ((last_bounds h' hS hr hini hpol hlog i t ht).2 (hF t)))
    (hfe _ _ (sigmaAt_pos hsl hs0 k).le)
  rw [withSigma_w h'] at w1 w2
  have hfp : f d.p = P.form.w.map env := by rw [hpm, hf]
  have hx0 : d.x0.length = P.form.w.length := by
    rw [← hwl, hw, hlog]
    exact (Oracle.len _ _ _).symm
  rw [hw, hlog, wishOracle_answer P f (by rw [hfp, hx0, List.length_map]) (by rw [hfp]; exact w1)
    (by rw [hfp]; exact w2), hfp]

end
end Nosnoc
