import Verif.Witness.Jump
import Verif.Props.Solve
/-
A simulation problem (no controls, one control stage, no ocp) and an NLP solver that always fails.
-/
namespace Nosnoc

section
variable {colloc : IrkScheme → Nat → List ℝ} {o : Opts} {um : UserModel}
  {po : PreOpts} {m : PreModel} {oc : PreOcp} {P : Problem}

/-- Giving no ocp is giving the trivial one, except that the problem is marked. -/
theorem Setup.toNone (h : Setup colloc o um (some UserOcp.trivial) po m oc P) :
    Setup colloc o um none po m oc { P with ocpTrivial := true } := by
  have hok := h.ok
  unfold construct at hok
  simp only [bind_eq_ok] at hok
  obtain ⟨_, h1, po', h2, m', h3, oc', h4, p', hb, he⟩ := hok
  cases he
  unfold build at hb
  simp only [bind_eq_ok] at hb
  obtain ⟨pr, b1, acc, b2, gc, b3, cv, b4, f2, b5, f4, b6, ca, b7, f6, b8, hb⟩ := hb
  have hP := (Except.ok.inj hb).symm
  refine ⟨?_, h.nS, h.alpha⟩
  unfold construct build
  simp only [bind_eq_ok]
  refine ⟨_, h1, _, h2, _, h3, _, h4, _, ⟨pr, b1, acc, b2, gc, b3, cv, b4, f2, b5, f4, b6, ca, b7,
    f6, b8, rfl⟩, ?_⟩
  rw [hP]
  rfl

end

/-- The jump problem as a simulation problem, with any initialisation strategy. -/
noncomputable def simOpts (s : InitStrategy) : Opts :=
  { Opts.default with
    useFesd := false, irkRep := .differentialLiftX, nS := 1, nFe := 1, initStrategy := s }

theorem sim_setup (s : InitStrategy) :
    ∃ po m oc P, Setup oneColloc (simOpts s) jumpModel none po m oc P := by
  suffices h : ∃ po m oc P, Setup oneColloc (simOpts s) jumpModel (some UserOcp.trivial) po m oc P by
    obtain ⟨po, m, oc, P, h⟩ := h
    exact ⟨po, m, oc, _, h.toNone⟩
  obtain ⟨po, hpo⟩ : ∃ po, (simOpts s).preprocess oneColloc = .ok po :=
    flex_preOpts (by norm_num [simOpts, Opts.default]) (.inr ⟨radau1, rfl, by simp [radau1]⟩)
  have h1 := preprocess_opts hpo
  have e := h1.toOpts
  have e2 : po.timeFreezing = false := by rw [e]; rfl
  obtain ⟨m, hm⟩ : ∃ m, jumpModel.preprocess po = .ok m := by
    refine switched_ok (Fs := [⟨2, fun _ _ _ _ _ _ _ => -2⟩])
      (cs := [⟨1, fun _ x _ _ => x.getD 0 0⟩])
      (Ss := [signMat]) ⟨?_, ?_, ?_, rfl, ?_, .inr e2⟩
      ⟨rfl, rfl, rfl, rfl, ?_, rfl, le_rfl, ?_, ?_, ?_, ?_⟩ rfl
    · intro l h; cases h
    · intro l h; cases h
    · intro l h; cases h
    · intro V h; cases h
    · intro f hf
      simp only [List.mem_singleton] at hf
      rw [hf]
      simp
    · intro s hs
      obtain rfl : s = 0 := by simpa using hs
      rfl
    · intro _ s hs
      obtain rfl : s = 0 := by simpa using hs
      rfl
    · intro _ s hs i hi k hk _
      obtain rfl : s = 0 := by simpa using hs
      exact hk
    · intro _ s hs
      obtain rfl : s = 0 := by simpa using hs
      rfl
  obtain ⟨oc, hoc⟩ : ∃ oc, UserOcp.trivial.preprocess m = .ok oc := by
    obtain ⟨nC, nF, g, up, f0, acc, hp⟩ := preprocess_pre hm
    unfold UserOcp.preprocess
    rw [hp.dims]
    exact ⟨_, rfl⟩
  obtain ⟨P, hP⟩ := (C06_construct_iff (uo := some UserOcp.trivial) rfl hpo hm hoc
    (by simp [simOpts]) (fun _ => rfl) rfl).2 ⟨by simp [simOpts, Opts.default], rfl,
      by simp [simOpts, Opts.default], fun k hk => by
        have hk0 : k = 0 := by simpa [simOpts, Opts.default] using hk
        subst hk0
        exact ⟨1, rfl, Nat.one_pos⟩, by simp [simOpts, Opts.default]⟩
  exact ⟨po, m, oc, P, hP, by simp [simOpts], fun _ => rfl⟩

/-- An NLP solver that never finds a feasible point. -/
def failOracle : Oracle where
  sol log := ⟨(log.getLast?.map NlpCall.x0).getD [], "Infeasible_Problem_Detected", 0, 0, 0⟩
  len log c := by simp

end Nosnoc
