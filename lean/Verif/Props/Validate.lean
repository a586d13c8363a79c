import Verif.Proofs.Validate
/-
C69: option type validation.
-/
namespace Nosnoc
open Spec

/-- C69: `preprocess()` raises `TypeError` exactly if some option has a value that is not an
instance of its type, whatever `tol_ipopt` is. -/
theorem C69_typeError_iff (colloc : IrkScheme → Nat → List ℝ) (p : PyOpts) :
    p.preprocess colloc = .error .typeError ↔ ¬ WellTyped p.attr := by
  constructor
  · intro h hw
    rw [hw.preprocess] at h
    split at h
    · cases h
    · exact preprocess_not_typeError _ _ h
  · intro hw
    have hv : validate p = .error .typeError := by
      cases h : validate p with
      | ok u => exact absurd ((validate_ok_iff p).1 h) hw
      | error e => rw [validateLoop_error _ _ h]
    unfold PyOpts.preprocess
    rw [hv]
    cases p.tolUnset <;> cases (p.attr "comp_tol").timesFloat <;> rfl

/-- C69: on objects whose values have their types, `preprocess()` does what the rest of the model
(`Opts.preprocess`) says. -/
theorem C69_agrees (colloc : IrkScheme → Nat → List ℝ) (o : Opts) (pl : Int) (ub t : Bool) :
    (toPython o pl ub t).preprocess colloc = o.preprocess colloc := by
  rw [(toPython_wellTyped o pl ub t).preprocess, toPython_decode]
  exact if_neg (by change ¬ ((o.nS : Int) < 0); omega)

/-- C69: an integer is rejected for every option of type `float`, even on an otherwise correct
object. -/
theorem C69_int_for_float (colloc : IrkScheme → Nat → List ℝ) (p : PyOpts) (i : Int) {a : String}
    (ha : a ∈ ["gamma_h", "smoothing_parameter", "comp_tol", "sigma_0", "sigma_N",
      "homotopy_update_slope", "homotopy_update_exponent", "step_equilibration_sigma", "rho_h",
      "fb_ip_aug1_weight", "fb_ip_aug2_weight", "s_elastic_0", "s_elastic_max", "s_elastic_min",
      "time_freezing_tolerance", "speed_of_time_min", "speed_of_time_max"]) :
    (withAttr p a (.int i)).preprocess colloc = .error .typeError := by
  rw [C69_typeError_iff]
  intro h
  have := h.floats a ha
  rw [withAttr_self] at this
  cases this

/-- C69: `True` and `False` are accepted for every option of type `int`, and integers for
`terminal_time`. -/
theorem C69_accepted (colloc : IrkScheme → Nat → List ℝ) (p : PyOpts) (hp : WellTyped p.attr)
    {a : String} {v : OptVal}
    (ha : (a ∈ ["print_level", "max_iter_homotopy", "n_s", "N_finite_elements", "N_stages"]
            ∧ ∃ b, v = .bool b)
        ∨ (a = "terminal_time" ∧ ∃ i, v = .int i)) :
    (withAttr p a v).preprocess colloc ≠ .error .typeError := by
  rw [Ne, C69_typeError_iff, not_not]
  have other : ∀ b : String, b ≠ a → (withAttr p a v).attr b = p.attr b :=
    fun b h => withAttr_ne p v h
  have hnot : ∀ b : String, b ∉ ["print_level", "max_iter_homotopy", "n_s", "N_finite_elements",
      "N_stages", "terminal_time"] → (withAttr p a v).attr b = p.attr b := by
    intro b hb
    apply other
    rintro rfl
    rcases ha with ⟨h, -⟩ | ⟨h, -⟩
    · simp only [List.mem_cons, List.not_mem_nil, or_false] at h hb
      tauto
    · subst h; simp at hb
  refine ⟨?_, ?_, ?_, ?_, ?_, ?_, ?_, ?_, ?_, ?_, ?_, ?_, ?_, ?_, ?_⟩
  · by_cases h : "terminal_time" = a
    · subst h
      rcases ha with ⟨h, -⟩ | ⟨-, i, rfl⟩
      · simp at h
      · rw [withAttr_self]; exact .inr (.int i)
    · rw [other _ h]; exact hp.time
  · intro b hb
    rw [hnot b (by revert b; decide)]
    exact hp.bools b hb
  · intro b hb
    by_cases h : b = a
    · subst h
      rcases ha with ⟨-, c, rfl⟩ | ⟨rfl, -⟩
      · rw [withAttr_self]; exact .boolInt c
      · simp at hb
    · rw [other _ h]; exact hp.ints b hb
  · intro b hb
    rw [hnot b (by revert b; decide)]
    exact hp.floats b hb
  · rw [hnot _ (by decide)]; exact hp.list
  · rw [hnot _ (by decide)]; exact hp.init
  · rw [hnot _ (by decide)]; exact hp.rep
  · rw [hnot _ (by decide)]; exact hp.scheme
  · rw [hnot _ (by decide)]; exact hp.cross
  · rw [hnot _ (by decide)]; exact hp.mpcc
  · rw [hnot _ (by decide)]; exact hp.handling
  · rw [hnot _ (by decide)]; exact hp.pss
  · rw [hnot _ (by decide)]; exact hp.rule
  · rw [hnot _ (by decide)]; exact hp.stepEq
  · rw [hnot _ (by decide)]; exact hp.sot

/-- The default options are well typed; with `comp_tol = 1` (an int) they are not. -/
example : WellTyped (toPython .default 0 true true).attr ∧
    ¬ WellTyped (withAttr (toPython .default 0 true true) "comp_tol" (.int 1)).attr := by
  refine ⟨toPython_wellTyped _ _ _ _, fun h => ?_⟩
  have := h.floats "comp_tol" (by simp)
  rw [withAttr_self] at this
  cases this

end Nosnoc
