import Verif.Proofs.History
import Verif.Props.SetGuess
/-
C114: the order of `set` calls for different fields does not matter, and the last call for a field wins.
C115: earlier calls of `solve` do not influence later ones, unless the strategy asks for it.
-/
namespace Nosnoc

section
variable {colloc : IrkScheme → Nat → List ℝ} {o : Opts} {um : UserModel} {uo : Option UserOcp}
  {po : PreOpts} {m : PreModel} {oc : PreOcp} {P : Problem} {orc : Oracle} {S : Solver}

theorem disjoint_parts {α : Type} {l : List α} {f A B : α → List Nat} (h : (l.flatMap f).Nodup)
    (hAB : ∀ a, (A a ++ B a).Sublist (f a)) {i : Nat} (hA : i ∈ l.flatMap A) (hB : i ∈ l.flatMap B) : False := by
  induction l with
  | nil => cases hA
  | cons a l ih =>
    rw [List.flatMap_cons] at h hA hB
    obtain ⟨h1, h2, h3⟩ := List.nodup_append.1 h
    have hsubA : ∀ a, A a ⊆ f a := fun a x hx => (hAB a).subset (List.mem_append_left _ hx)
    have hsubB : ∀ a, B a ⊆ f a := fun a x hx => (hAB a).subset (List.mem_append_right _ hx)
    have up : ∀ {C : α → List Nat}, (∀ a, C a ⊆ f a) → i ∈ l.flatMap C → i ∈ l.flatMap f := by
      intro C hC hm
      obtain ⟨b, hb, hi⟩ := List.mem_flatMap.1 hm
      exact List.mem_flatMap.2 ⟨b, hb, hC b hi⟩
    rcases List.mem_append.1 hA with hA | hA <;> rcases List.mem_append.1 hB with hB | hB
    · have : (A a ++ B a).Nodup := h1.sublist (hAB a)
      exact (List.nodup_append.1 this).2.2 i hA i hB rfl
    · exact h3 i (hsubA a hA) i (up hsubB hB) rfl
    · exact h3 i (hsubB a hB) i (up hsubA hA) rfl
    · exact ih h2 hA hB

/-- The order of calls can be studied for every reachable object. -/
theorem Setup.good (h : Setup colloc o um uo po m oc P) (hS : Reachable colloc o um uo orc S) : S.Good := by
  have hi := hS.inv h
  refine ⟨?_, fun r hr => ?_⟩
  · have hn : P.allIndices.Nodup := (C01_index_lists_partition h).1.nodup_iff.2 List.nodup_range
    unfold Problem.allIndices at hn
    obtain ⟨hn, n1, d1⟩ := List.nodup_append.1 hn
    obtain ⟨hn, -, -⟩ := List.nodup_append.1 hn
    obtain ⟨hn, -, -⟩ := List.nodup_append.1 hn
    obtain ⟨hn, n2, d2⟩ := List.nodup_append.1 hn
    obtain ⟨-, n3, -⟩ := List.nodup_append.1 hn
    have sx : ∀ i ∈ P.slots .x, i ∈ P.idx.flatten.flatMap FEIdx.all := by
      intro i him
      obtain ⟨fi, hf, hm⟩ := List.mem_flatMap.1 him
      refine List.mem_flatMap.2 ⟨fi, hf, ?_⟩
      simp only [FEIdx.all, List.mem_append, List.mem_flatMap]
      exact .inl (.inl (.inr ⟨.x, by simp, hm⟩))
    have st : ∀ i ∈ P.slots .theta, i ∈ P.idx.flatten.flatMap FEIdx.all := by
      intro i him
      obtain ⟨fi, hf, hm⟩ := List.mem_flatMap.1 him
      refine List.mem_flatMap.2 ⟨fi, hf, ?_⟩
      simp only [FEIdx.all, List.mem_append, List.mem_flatMap]
      exact .inl (.inr ⟨.theta, by simp, hm⟩)
    have su : ∀ i ∈ P.slots .u, ∀ j ∈ P.idx.flatten.flatMap FEIdx.all, i ≠ j := fun i hi j hj =>
      d1 i (by simp only [List.mem_append]; exact .inl (.inl (.inr hi))) j hj
    have sv : ∀ i ∈ P.slots .vGlobal, ∀ j ∈ P.idx.flatten.flatMap FEIdx.all, i ≠ j := fun i hi j hj =>
      d1 i (by simp only [List.mem_append]; exact .inl (.inl (.inl (.inr hi)))) j hj
    have suv : ∀ i ∈ P.slots .vGlobal, ∀ j ∈ P.slots .u, i ≠ j := fun i hi j hj =>
      d2 i (List.mem_append_right _ hi) j hj
    have sxt : ∀ i ∈ P.slots .x, i ∉ P.slots .theta := fun i h1 h2 => by
      refine disjoint_parts n1 (fun fi => ?_) h1 h2
      simp only [FEIdx.all, List.flatMap_cons, List.append_assoc]
      refine (List.nil_sublist _).append (l₁ := []) (l₂ := fi.h) ?_
      refine (List.nil_sublist _).append (l₁ := []) (l₂ := (fi.one .v).flatten) ?_
      refine List.Sublist.append (List.Sublist.refl _) ?_
      refine (List.nil_sublist _).append (l₁ := []) (l₂ := (fi.one .z).flatten) ?_
      exact List.sublist_append_left _ _
    have hslots : S.P.slots = P.slots := by
      funext f
      cases f <;> simp only [Problem.slots, hi.idx, hi.indU, hi.indVGlobal]
    rw [hslots]
    intro f g hfg i h1 h2
    cases f <;> cases g <;> first
      | exact absurd rfl hfg
      | exact absurd h1 List.not_mem_nil
      | exact absurd h2 List.not_mem_nil
      | exact sxt i h1 h2
      | exact sxt i h2 h1
      | exact su i h1 i (sx i h2) rfl
      | exact su i h2 i (sx i h1) rfl
      | exact su i h1 i (st i h2) rfl
      | exact su i h2 i (st i h1) rfl
      | exact sv i h1 i (sx i h2) rfl
      | exact sv i h2 i (sx i h1) rfl
      | exact sv i h1 i (st i h2) rfl
      | exact sv i h2 i (st i h1) rfl
      | exact suv i h1 i h2 rfl
      | exact suv i h2 i h1 rfl
  · rw [hi.dims, hi.pRow r hr]
    omega

/-! ### C114 -/

/-- C114: calls of `set` for different fields (other than the whole guess `w`) can be swapped: the object
after both calls is the same, and each call raises the same exception or none, whether or not the other one
is carried out before it. -/
theorem C114_order (h : Setup colloc o um uo po m oc P) (hS : Reachable colloc o um uo orc S)
    {f g : Field} (hfg : f ≠ g) (hf : f ≠ .w) (hg : g ≠ .w) (v w : Arr) :
    ((S.set f v).1.set g w).1 = ((S.set g w).1.set f v).1 ∧
    ((S.set f v).1.set g w).2 = (S.set g w).2 ∧ ((S.set g w).1.set f v).2 = (S.set f v).2 :=
  ⟨set_comm (h.good hS) hfg hf hg v w, out_after S hf hg v w, out_after S hg hf w v⟩

/-- C114: a call that is carried out makes every earlier call for the same field void, even one that failed
after having written a part of its values. -/
theorem C114_last_wins (h : Setup colloc o um uo po m oc P) (hS : Reachable colloc o um uo orc S)
    (f : Field) (v1 v2 : Arr) (hacc : Accepted (S.set f v2).2) :
    (S.set f v1).1.set f v2 = S.set f v2 := set_twice (h.good hS) v1 v2 hacc

/-- C114: setting the whole guess makes every earlier call for a part of the guess void. -/
theorem C114_whole_guess (S : Solver) {f : Field} (hf : f = .x ∨ f = .u ∨ f = .vGlobal ∨ f = .theta)
    (v w : Arr) : (S.set f v).1.set .w w = S.set .w w := by
  refine set_then_w ?_ v w
  rcases hf with rfl | rfl | rfl | rfl <;> rfl

/-- C114: after any two sequences of calls that are carried out and give every field the same last value, the
solver objects are the same. -/
theorem C114_history (h : Setup colloc o um uo po m oc P) (hS : Reachable colloc o um uo orc S)
    {cs cs' : List (Field × Arr)} (hc : ∀ c ∈ cs, c.1 ≠ .w ∧ Accepted (S.set c.1 c.2).2)
    (hc' : ∀ c ∈ cs', c.1 ≠ .w ∧ Accepted (S.set c.1 c.2).2) (hl : ∀ f, lastSet cs f = lastSet cs' f) :
    S.sets cs = S.sets cs' := sets_last (h.good hS) hc hc' hl

/-! ### C115 -/

/-- C115: with EXTERNAL or ALL_XCURRENT_W0_START and an NLP solver whose answer depends on the call only, the
result of `solve` after any history is its result after the same calls of `set` without the solves. -/
theorem C115_earlier_solves (h : Setup colloc o um uo po m oc P) (hS : Reachable colloc o um uo orc S)
    (hd : ∀ log c, orc.sol (log ++ [c]) = orc.sol [c])
    (hs : o.initStrategy = .external ∨ o.initStrategy = .allXcurrentW0Start) (cs : List SolverAct) :
    ((S.execs orc um cs).solve orc).2 = ((S.sets (settings cs)).solve orc).2 := by
  have hi := hS.inv h
  have hs' : FreshStart S.o.initStrategy := by rw [hi.opts, h.opts]; exact hs
  have so : ∀ (S : Solver) f v, (S.set f v).1.o = S.o := by
    intro S f v
    by_cases hf : f = .w
    · subst hf; cases v <;> rfl
    · rw [set_form hf]; rfl
  have key : ∀ (cs : List SolverAct) (S T : Solver), FreshStart S.o.initStrategy → S.Rel T →
      FreshStart (S.sets (settings cs)).o.initStrategy ∧ (S.sets (settings cs)).Rel (T.execs orc um cs) := by
    intro cs
    induction cs with
    | nil => intro S T h1 h2; exact ⟨h1, h2⟩
    | cons c cs ih =>
      intro S T h1 h2
      have ho : T.o = S.o := by obtain ⟨l, w, rfl, -⟩ := h2; rfl
      cases c with
      | set f v => exact ih _ _ (by rw [so]; exact h1) (rel_set h2 f v)
      | solve => exact ih S _ h1 (rel_trans h2 (rel_solve orc (by rw [ho]; exact h1)))
      | solveRoot rf => exact ih S _ h1 (rel_trans h2 (rel_solveRoot orc rf um (by rw [ho]; exact h1)))
  obtain ⟨k1, k2⟩ := key cs S S hs' (rel_refl S)
  exact solve_rel hd k1 k2

/-- C115 with C114: after any two histories whose calls of `set` are carried out and give every field the same
last value, `solve` returns the same result. -/
theorem C115_last_settings_decide (h : Setup colloc o um uo po m oc P) (hS : Reachable colloc o um uo orc S)
    (hd : ∀ log c, orc.sol (log ++ [c]) = orc.sol [c])
    (hs : o.initStrategy = .external ∨ o.initStrategy = .allXcurrentW0Start) {cs cs' : List SolverAct}
    (hc : ∀ c ∈ settings cs, c.1 ≠ .w ∧ Accepted (S.set c.1 c.2).2)
    (hc' : ∀ c ∈ settings cs', c.1 ≠ .w ∧ Accepted (S.set c.1 c.2).2)
    (hl : ∀ f, lastSet (settings cs) f = lastSet (settings cs') f) :
    ((S.execs orc um cs).solve orc).2 = ((S.execs orc um cs').solve orc).2 := by
  rw [C115_earlier_solves h hS hd hs, C115_earlier_solves h hS hd hs, C114_history h hS hc hc' hl]

/-! ### The hypotheses are met -/

/-- The demo solver with two histories: the first sets the initial state twice, solves, and sets the state
guesses; the second sets the guesses first and does not solve. -/
example : ∃ po m oc P S, Setup demoColloc { Opts.default with initStrategy := .allXcurrentW0Start }
      demoModel (some demoOcp) po m oc P ∧
    Reachable demoColloc { Opts.default with initStrategy := .allXcurrentW0Start } demoModel
      (some demoOcp) echoOracle S ∧
    (∀ log c, echoOracle.sol (log ++ [c]) = echoOracle.sol [c]) ∧
    ∃ cs cs' : List SolverAct, cs ≠ cs' ∧
      (∀ c ∈ settings cs, c.1 ≠ .w ∧ Accepted (S.set c.1 c.2).2) ∧
      (∀ c ∈ settings cs', c.1 ≠ .w ∧ Accepted (S.set c.1 c.2).2) ∧
      ∀ f, lastSet (settings cs) f = lastSet (settings cs') f := by
  obtain ⟨po, m, oc, P, h, -⟩ := demo_setup
    (o := { Opts.default with initStrategy := .allXcurrentW0Start })
    (by constructor <;> simp [Opts.default, Opts.nfeAfter])
  obtain ⟨-, h2, h3⟩ := h.toSetup.create echoOracle (by simp)
  obtain ⟨S', hset, -⟩ := C55_states_by_stage h.toSetup h2 h3 fun _ _ => (2 : ℝ)
  refine ⟨po, m, oc, P, _, h.toSetup, h2, fun log c => by simp [echoOracle],
    [.set .x0 (.vec [1]), .solve, .set .x0 (.vec [3]),
      .set .x (.mat Opts.default.nStages demoModel.nX fun _ _ => 2)],
    [.set .x (.mat Opts.default.nStages demoModel.nX fun _ _ => 2), .set .x0 (.vec [3])], by simp, ?_, ?_, ?_⟩
  · intro c hc
    simp only [settings, List.filterMap_cons, List.filterMap_nil, List.mem_cons, List.not_mem_nil, or_false] at hc
    rcases hc with rfl | rfl | rfl
    · exact ⟨by simp, .inl rfl⟩
    · exact ⟨by simp, .inl rfl⟩
    · refine ⟨by simp, .inr ?_⟩
      exact congrArg Prod.snd hset
  · intro c hc
    simp only [settings, List.filterMap_cons, List.filterMap_nil, List.mem_cons, List.not_mem_nil, or_false] at hc
    rcases hc with rfl | rfl
    · refine ⟨by simp, .inr ?_⟩
      exact congrArg Prod.snd hset
    · exact ⟨by simp, .inl rfl⟩
  · intro f
    simp only [settings, List.filterMap_cons, List.filterMap_nil]
    cases f <;> simp [lastSet, List.filter_cons]

end
end Nosnoc
