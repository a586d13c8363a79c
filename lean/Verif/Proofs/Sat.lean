import Verif.Proofs.Bind
import Verif.Spec.Mpcc
/-
Helper lemmas: satisfaction of the constraint rows of commands.
-/
namespace Nosnoc

section
variable {o : PreOpts}

/-- Values at which a vector of expressions has bounds `lb`, `ub`. -/
def VecSat (env : Env) (g : Vec) (lb ub : List EReal) : Prop := ∀ r ∈ mkRows g lb ub, Row.Sat env r

theorem vecSat_zero {env : Env} {g : Vec} {n : Nat} (hn : g.length = n) :
    VecSat env g (List.replicate n 0) (List.replicate n 0) ↔ ∀ q ∈ g, q env = 0 := by
  subst hn
  unfold VecSat mkRows
  induction g with
  | nil => simp
  | cons q g ih =>
    simp only [List.length_cons, List.replicate_succ, List.zip_cons_cons, List.forall_mem_cons]
    refine and_congr ?_ ih
    unfold Row.Sat
    rw [← EReal.coe_zero, EReal.coe_le_coe_iff, EReal.coe_le_coe_iff]
    constructor
    · rintro ⟨h1, h2⟩; exact le_antisymm h2 h1
    · intro h; simp [h]

theorem vecSat_replicate {env : Env} {g : Vec} {n : Nat} (hn : g.length = n) {a b : EReal} :
    VecSat env g (List.replicate n a) (List.replicate n b)
      ↔ ∀ q ∈ g, a ≤ ((q env : ℝ) : EReal) ∧ ((q env : ℝ) : EReal) ≤ b := by
  subst hn
  unfold VecSat mkRows
  induction g with
  | nil => simp
  | cons q g ih =>
    simp only [List.length_cons, List.replicate_succ, List.zip_cons_cons, List.forall_mem_cons]
    exact and_congr Iff.rfl ih

theorem vecSat_append {env : Env} {g g' : Vec} {lb lb' ub ub' : List EReal}
    (h1 : lb.length = g.length) (h2 : ub.length = g.length) :
    VecSat env (g ++ g') (lb ++ lb') (ub ++ ub') ↔ VecSat env g lb ub ∧ VecSat env g' lb' ub' := by
  unfold VecSat
  rw [mkRows_append h1 h2, List.forall_mem_append]

/-- A vector constraint by components. -/
theorem vecSat_iff {env : Env} {g : Vec} {lb ub : List EReal} (h1 : lb.length = g.length)
    (h2 : ub.length = g.length) :
    VecSat env g lb ub ↔ ∀ i < g.length, lb.getD i 0 ≤ ((at' g i env : ℝ) : EReal) ∧
      ((at' g i env : ℝ) : EReal) ≤ ub.getD i 0 := by
  unfold VecSat mkRows
  constructor
  · intro H i hi
    have := H (g[i], lb[i], ub[i]) (List.mem_iff_getElem.2 ⟨i, by simp; omega, by simp⟩)
    simpa [at', hi, h1, h2, Row.Sat] using this
  · intro H r hr
    obtain ⟨i, hi, rfl⟩ := List.mem_iff_getElem.1 hr
    have hi' : i < g.length := by simp at hi; omega
    have := H i hi'
    simpa [at', hi', h1, h2, Row.Sat] using this

/-- What a command imposes. -/
def CmdSat (o : PreOpts) (env : Env) : Cmd → Prop
  | .con g none => ∀ q ∈ g, q env = 0
  | .con g (some b) => VecSat env g b.1 b.2
  | .compl xs y => ∀ j < y.length, CompSat o.toOpts (env .sigma) (env .tau) (env .sElastic)
      (xs.map fun x => at' x j env) (at' y j env)
  | .cost _ => True

theorem forall_map_range {n : Nat} {φ : Nat → Expr} {P : Expr → Prop} :
    (∀ q ∈ (List.range n).map φ, P q) ↔ ∀ i < n, P (φ i) := by simp

theorem bot_le_iff {a : ℝ} {P : Prop} : ((⊥ : EReal) ≤ ((a : ℝ) : EReal) ∧ P) ↔ P := by simp

theorem ecoe_le_zero {a : ℝ} : ((a : ℝ) : EReal) ≤ 0 ↔ a ≤ 0 := by
  rw [← EReal.coe_zero, EReal.coe_le_coe_iff]
theorem zero_le_ecoe {a : ℝ} : (0 : EReal) ≤ ((a : ℝ) : EReal) ↔ 0 ≤ a := by
  rw [← EReal.coe_zero, EReal.coe_le_coe_iff]

/-- Non-boolean modes: satisfaction of the rows of a command. -/
theorem cmdRows_iff (hb : o.mpcc ≠ .boolean) {c : Cmd} (hc : CmdOk o c) (z : List Sym) {env : Env} :
    (∀ r ∈ cmdRows o z c, Row.Sat env r) ↔ CmdSat o env c := by
  cases c with
  | con g bnd =>
    cases bnd with
    | none => exact vecSat_zero rfl
    | some b => exact Iff.rfl
  | cost e => simp [cmdRows, cmdG, cmdBnd, mkRows, CmdSat]
  | compl xs y =>
    have hok := compExpr_ok hc hb z
    show VecSat env (cmdG o z (.compl xs y)) (cmdBnd o z (.compl xs y)).1
      (cmdBnd o z (.compl xs y)).2 ↔ _
    simp only [cmdBnd]
    generalize cmdG o z (.compl xs y) = G at hok
    unfold compExpr at hok
    have hsum : ∀ j, (xs.map fun x => at' x j env).sum = sumAt xs j env := fun j => rfl
    have hfb : ∀ j, fbAt xs y j env = ((xs.map fun x => at' x j env).map
        fun x => fischerBurmeister x (at' y j env) (env .sigma)).sum := by
      intro j; simp [fbAt, Function.comp_def, fischerBurmeister, fbTerm]
    cases hm : o.mpcc with
    | boolean => exact absurd hm hb
    | scholtesIneq =>
      simp only [hm] at hok
      injection hok with hok; subst hok
      simp only [compBounds, CmdSat, CompSat, hm]
      rw [vecSat_replicate rfl, forall_map_range]
      refine forall₂_congr fun j _ => ?_
      rw [bot_le_iff, ecoe_le_zero, sub_nonpos, hsum]
    | scholtesEq =>
      simp only [hm] at hok
      injection hok with hok; subst hok
      simp only [compBounds, CmdSat, CompSat, hm]
      rw [vecSat_zero rfl, forall_map_range]
      refine forall₂_congr fun j _ => ?_
      rw [sub_eq_zero, hsum]
    | elasticIneq =>
      simp only [hm] at hok
      injection hok with hok; subst hok
      simp only [compBounds, CmdSat, CompSat, hm]
      rw [vecSat_replicate rfl, forall_map_range]
      refine forall₂_congr fun j _ => ?_
      rw [bot_le_iff, ecoe_le_zero, sub_nonpos, hsum]
    | elasticEq =>
      simp only [hm] at hok
      injection hok with hok; subst hok
      simp only [compBounds, CmdSat, CompSat, hm]
      rw [vecSat_zero rfl, forall_map_range]
      refine forall₂_congr fun j _ => ?_
      rw [sub_eq_zero, hsum]
    | elasticTwoSided =>
      simp only [hm] at hok
      injection hok with hok; subst hok
      simp only [compBounds, CmdSat, CompSat, hm]
      rw [vecSat_append (by simp) (by simp), vecSat_replicate (by simp), vecSat_replicate (by simp),
        forall_map_range, forall_map_range]
      constructor
      · rintro ⟨h1, h2⟩ j hj
        have a1 := (h1 j hj).2
        have a2 := (h2 j hj).1
        rw [ecoe_le_zero] at a1
        rw [zero_le_ecoe] at a2
        rw [hsum]
        constructor <;> linarith
      · intro h
        refine ⟨fun j hj => ⟨bot_le, ?_⟩, fun j hj => ⟨?_, le_top⟩⟩
        · rw [ecoe_le_zero]; have := (h j hj).2; rw [hsum] at this; linarith
        · rw [zero_le_ecoe]; have := (h j hj).1; rw [hsum] at this; linarith
    | fischerBurmeister =>
      simp only [hm] at hok
      injection hok with hok; subst hok
      simp only [compBounds, CmdSat, CompSat, hm]
      rw [vecSat_zero rfl, forall_map_range]
      refine forall₂_congr fun j _ => ?_
      rw [hfb]
    | fischerBurmeisterIpAug =>
      obtain ⟨x, rfl⟩ := List.length_eq_one_iff.1 (hc.2.2 hm)
      simp only [hm] at hok
      injection hok with hok; subst hok
      simp only [compBounds, CmdSat, CompSat, hm]
      rw [vecSat_zero rfl]
      simp only [List.forall_mem_append, forall_map_range]
      simp only [List.map_cons, List.map_nil, List.sum_cons, List.sum_nil, add_zero]
      have hfb' : ∀ j, fbAt [x] y j env
          = fischerBurmeister (at' x j env) (at' y j env) (env .sigma) := by
        intro j; rw [hfb]; simp
      constructor
      · rintro ⟨⟨⟨h1, h2⟩, h3⟩, h4⟩ j hj
        refine ⟨?_, h2 j hj, h3 j hj, ?_⟩
        · rw [← hfb']; exact h1 j hj
        · rw [← hfb']; exact h4 j hj
      · intro h
        refine ⟨⟨⟨fun j hj => ?_, fun j hj => (h j hj).2.1⟩, fun j hj => (h j hj).2.2.1⟩,
          fun j hj => ?_⟩
        · rw [hfb']; exact (h j hj).1
        · rw [hfb']; exact (h j hj).2.2.2

/-- Boolean mode: rows and bounds of the binary variables. -/
theorem cmdRows_bool (hm : o.mpcc = .boolean) {c : Cmd} {bs : Nat → Sym} {pos : Nat}
    {env : Env} (hr : ∀ r ∈ cmdRows o (cmdVars o bs pos c) c, Row.Sat env r)
    (hv : ∀ i, pos ≤ i → i < pos + cmdNV o c → 0 ≤ env (bs i) ∧ env (bs i) ≤ 1) :
    CmdSat o env c := by
  cases c with
  | con g bnd =>
    cases bnd with
    | none => exact (vecSat_zero rfl).1 hr
    | some b => exact hr
  | cost e => trivial
  | compl xs y =>
    have hr' : VecSat env (boolExpr ((List.range' pos y.length).map bs) xs y)
        (List.replicate (boolExpr ((List.range' pos y.length).map bs) xs y).length 0)
        (List.replicate (boolExpr ((List.range' pos y.length).map bs) xs y).length ⊤) := by
      have h0 : VecSat env (cmdG o (cmdVars o bs pos (.compl xs y)) (.compl xs y)) _ _ := hr
      simpa [cmdBnd, cmdG, cmdVars, hm, compBounds] using h0
    rw [vecSat_replicate rfl] at hr'
    simp only [boolExpr, List.forall_mem_append, forall_map_range] at hr'
    obtain ⟨⟨⟨h1, h2⟩, h3⟩, h4⟩ := hr'
    intro j hj
    simp only [CompSat, hm]
    have hz : at' (vars ((List.range' pos y.length).map bs)) j env = env (bs (pos + j)) := by
      unfold at' vars var
      rw [List.getD_eq_getElem?_getD, List.getElem?_map, List.getElem?_map,
        List.getElem?_range' hj]
      simp
    have hnv : cmdNV o (.compl xs y) = y.length := by simp [cmdNV, hm]
    have hbd := hv (pos + j) (by omega) (by rw [hnv]; omega)
    have a1 := (h1 j hj).1
    have a2 := (h2 j hj).1
    have a3 := (h3 j hj).1
    have a4 := (h4 j hj).1
    rw [zero_le_ecoe, hz] at a1 a2 a3 a4
    unfold bigM at a1 a2 a3 a4
    have hsum : (xs.map fun x => at' x j env).sum = sumAt xs j env := rfl
    rw [hsum]
    exact ⟨env (bs (pos + j)), hbd.1, hbd.2, by linarith, by linarith, by linarith, by linarith⟩

theorem seqRows_iff (hb : o.mpcc ≠ .boolean) {cs : List Cmd} (hc : ∀ c ∈ cs, CmdOk o c)
    (bs : Nat → Sym) (pos : Nat) {env : Env} :
    (∀ r ∈ seqRows o bs pos cs, Row.Sat env r) ↔ ∀ c ∈ cs, CmdSat o env c := by
  induction cs generalizing pos with
  | nil => simp [seqRows]
  | cons c cs ih =>
    simp only [seqRows, List.forall_mem_append, List.forall_mem_cons]
    rw [cmdRows_iff hb (hc c (by simp)), ih fun c' h => hc c' (by simp [h])]

theorem seqRows_bool (hm : o.mpcc = .boolean) {cs : List Cmd}
    {bs : Nat → Sym} {pos : Nat} {env : Env} (hr : ∀ r ∈ seqRows o bs pos cs, Row.Sat env r)
    (hv : ∀ i, pos ≤ i → i < pos + seqNV o cs → 0 ≤ env (bs i) ∧ env (bs i) ≤ 1) :
    ∀ c ∈ cs, CmdSat o env c := by
  induction cs generalizing pos with
  | nil => simp
  | cons c cs ih =>
    simp only [seqRows, List.forall_mem_append] at hr
    have hnv : seqNV o (c :: cs) = cmdNV o c + seqNV o cs := by simp [seqNV]
    rw [List.forall_mem_cons]
    refine ⟨cmdRows_bool hm hr.1 fun i h1 h2 => hv i h1 (by omega), ih hr.2 fun i h1 h2 =>
      hv i (by omega) (by omega)⟩

end
end Nosnoc
