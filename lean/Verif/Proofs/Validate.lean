import Verif.Spec.Validate
import Verif.Proofs.Accept
/-
Lemmas about the option type check.
-/
namespace Nosnoc
open Spec

theorem isinstance_iff (v : OptVal) (c : PyClass) : v.isinstance c = true ↔ InstanceOf v c := by
  constructor
  · intro h
    cases v <;> simp only [OptVal.isinstance, decide_eq_true_eq, Bool.false_eq_true] at h
    case bool => rcases h with rfl | rfl <;> constructor
    case inst => exact .derived _ _ _ h
    all_goals first | (subst h; constructor) | exact h.elim
  · intro h
    cases h <;> simp_all [OptVal.isinstance]

theorem validateLoop_ok (attr : String → OptVal) (l : List (String × Annot)) :
    validateLoop attr l = .ok () ↔ ∀ x ∈ l, x.2.accepts (attr x.1) = true := by
  induction l with
  | nil => simp [validateLoop]
  | cons x l ih =>
      obtain ⟨a, t⟩ := x
      by_cases h : t.accepts (attr a) = true
      · simp [validateLoop, h, ih]
      · simp [validateLoop, h]

theorem validateLoop_error (attr : String → OptVal) (l : List (String × Annot)) {e : PyErr}
    (h : validateLoop attr l = .error e) : e = .typeError := by
  induction l with
  | nil => cases h
  | cons x l ih =>
      obtain ⟨a, t⟩ := x
      unfold validateLoop at h
      split at h
      · exact ih h
      · cases h; rfl

theorem validate_ok_iff (p : PyOpts) : validate p = .ok () ↔ WellTyped p.attr := by
  rw [validate, validateLoop_ok]
  simp only [annotations, List.forall_mem_cons, Annot.accepts, List.any_cons, List.any_nil,
    Bool.or_false, Bool.or_eq_true, isinstance_iff]
  constructor
  · intro h
    constructor <;> (try simp only [List.forall_mem_cons]) <;> tauto
  · intro h
    obtain ⟨h1, h2, h3, h4, h5, h6, h7, h8, h9, h10, h11, h12, h13, h14, h15⟩ := h
    simp only [List.forall_mem_cons] at h2 h3 h4
    tauto


/-- The rest of `preprocess` never raises `TypeError`. -/
theorem preprocess_not_typeError (colloc : IrkScheme → Nat → List ℝ) (o : Opts) :
    o.preprocess colloc ≠ .error .typeError := by
  have hmax : ∀ e, o.maxIter = .error e → e = .valueError := by
    intro e h
    unfold Opts.maxIter autoMaxIter at h
    split at h
    · split at h
      · cases h
      · cases h; rfl
    · cases h
  have hbut : ∀ n s, generateButcher n s ≠ .error .typeError := by
    intro n s
    unfold generateButcher
    cases s <;> dsimp only <;> split <;> simp
  intro h
  unfold Opts.preprocess at h
  cases hm : o.maxIter with
  | error e =>
      rw [hm] at h
      have := hmax e hm
      subst this
      cases h
  | ok k =>
      rw [hm] at h
      rcases o with ⟨_, _, _, _, rep, nS, sch⟩
      cases rep
      case integral =>
        simp only [ok_bind] at h
        split at h <;> cases h
      all_goals
        simp only [ok_bind] at h
        cases hb : generateButcher nS sch with
        | error e =>
            rw [hb] at h
            cases h
            exact hbut _ _ hb
        | ok t =>
            rw [hb] at h
            simp only [ok_bind] at h
            split at h <;> cases h

theorem Spec.InstanceOf.float_times {v : OptVal} (h : InstanceOf v .float) : v.timesFloat = true := by
  cases h with
  | float => rfl
  | npFloat => rfl
  | derived bases m _ hb =>
      simp [OptVal.timesFloat, hb]

theorem Spec.WellTyped.preprocess {p : PyOpts} (h : WellTyped p.attr) (colloc : IrkScheme → Nat → List ℝ) :
    p.preprocess colloc
      = if (p.attr "n_s").asInt < 0 then .error .casadi else p.decode.preprocess colloc := by
  have h1 : (p.attr "comp_tol").timesFloat = true :=
    InstanceOf.float_times (h.floats _ (by simp))
  unfold PyOpts.preprocess
  rw [(validate_ok_iff p).2 h]
  cases p.tolUnset <;> simp [h1] <;> rfl

theorem toPython_wellTyped (o : Opts) (pl : Int) (ub t : Bool) :
    WellTyped (toPython o pl ub t).attr := by
  constructor <;> (try simp only [List.forall_mem_cons]) <;>
    first
    | (exact Or.inl (.float _))
    | (refine ⟨?_, ?_, ?_, ?_, ?_, ?_, ?_, ?_, ?_, ?_, ?_⟩ <;> first | exact .boolBool _ | simp)
    | (refine ⟨?_, ?_, ?_, ?_, ?_, ?_⟩ <;> first | exact .int _ | simp)
    | (refine ⟨?_, ?_, ?_, ?_, ?_, ?_, ?_, ?_, ?_, ?_, ?_, ?_, ?_, ?_, ?_, ?_, ?_, ?_⟩ <;>
        first | exact .float _ | simp)
    | exact .list _ | exact .init _ | exact .rep _ | exact .scheme _ | exact .cross _
    | exact .mpcc _ | exact .handling _ | exact .pss _ | exact .rule _ | exact .stepEq _
    | exact .sot _

theorem toPython_decode (o : Opts) (pl : Int) (ub t : Bool) : (toPython o pl ub t).decode = o := by
  have h : ∀ l : List Nat, ((l.map fun n : Nat => OptVal.int n).map fun v => v.asInt.toNat) = l := by
    intro l
    induction l with
    | nil => rfl
    | cons a l ih =>
        simp only [List.map_cons, List.cons.injEq]
        exact ⟨rfl, ih⟩
  have h' : ((toPython o pl ub t).attr "Nfe_list").asNats = o.nfeList := by
    have a : (toPython o pl ub t).attr "Nfe_list" = .list (o.nfeList.map fun n : Nat => .int n) := rfl
    rw [a, OptVal.asNats]
    exact h o.nfeList
  have e : (toPython o pl ub t).decode
      = { o with nfeList := ((toPython o pl ub t).attr "Nfe_list").asNats } := rfl
  rw [e, h']

theorem withAttr_self (p : PyOpts) (a : String) (v : OptVal) : (withAttr p a v).attr a = v := by
  simp [withAttr]

theorem withAttr_ne (p : PyOpts) {a b : String} (v : OptVal) (h : b ≠ a) :
    (withAttr p a v).attr b = p.attr b := by
  simp [withAttr, h]

end Nosnoc
