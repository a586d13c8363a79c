import Verif.Props.Continue
/-
C124: `run` can be called again.
-/
namespace Nosnoc

section
variable {colloc : IrkScheme → Nat → List ℝ} {o : Opts} {um : UserModel} {uo : Option UserOcp}
  {po : PreOpts} {m : PreModel} {oc : PreOcp} {P : Problem} {orc : Oracle} {S : Solver}
  {stop : Bool} {L L' B : Looper} {N : Nat} {x0 : List ℝ} {pv : Option Arr}
  {wi : Option (List Arr)} {R R1 R2 : SimResults} {b : Bool}

/-- What does not change during the life of a looper. -/
structure LooperInv (colloc : IrkScheme → Nat → List ℝ) (o : Opts) (um : UserModel)
    (uo : Option UserOcp) (orc : Oracle) (N : Nat) (pv : Option Arr) (wi : Option (List Arr)) (L : Looper) :
    Prop where
  solver : Reachable colloc o um uo orc L.solver
  n : L.nSim = N
  p : L.pValues = pv
  w : L.wInit = wi
  cpu : L.cpuNlp.length = N
  ne : L.xSim ≠ []
  last : L.xSim.getLast? = some L.xcurrent

theorem setWInit_reachable (hS : Reachable colloc o um uo orc S) (i : Nat) :
    Reachable colloc o um uo orc (setWInit wi i S).1 := by
  unfold setWInit
  split
  · exact hS
  · split
    · exact hS
    · exact hS.set _ _

theorem setPRow_reachable (hS : Reachable colloc o um uo orc S) (i : Nat) :
    Reachable colloc o um uo orc (setPRow pv i S).1 := by
  unfold setPRow
  split
  · exact hS
  · split
    · exact hS
    · exact hS.set _ _

theorem sets_reachable (hS : Reachable colloc o um uo orc L.solver) (i : Nat) :
    Reachable colloc o um uo orc (L.sets i).1 := by
  unfold Looper.sets andThen
  split
  · split
    · exact hS.set _ _
    · exact setWInit_reachable (hS.set _ _) i
  · refine setPRow_reachable ?_ i
    split
    · exact hS.set _ _
    · exact setWInit_reachable (hS.set _ _) i

theorem LooperInv.step (I : LooperInv colloc o um uo orc N pv wi L) (i : Nat) :
    LooperInv colloc o um uo orc N pv wi (L.step orc i).1 := by
  have h1 := sets_reachable I.solver i
  unfold Looper.step
  rcases hs : L.sets i with ⟨T, e | e⟩
  · rw [hs] at h1
    dsimp only
    have h2 := h1.solve
    rcases ht : T.solve orc with ⟨T', e | r⟩
    · rw [ht] at h2
      exact ⟨h2, I.n, I.p, I.w, I.cpu, I.ne, I.last⟩
    · rw [ht] at h2
      have hne : L.xSim ++ r.res.xList ≠ [] := List.append_ne_nil_of_left_ne_nil I.ne _
      refine ⟨h2, I.n, I.p, I.w, ?_, hne, ?_⟩
      · show (L.cpuNlp.set i r.cpuTimeNlp).length = N
        rw [List.length_set, I.cpu]
      · show (L.xSim ++ r.res.xList).getLast? = some (((L.xSim ++ r.res.xList).getLast?).getD [])
        rw [List.getLast?_eq_some_getLast hne]
        rfl
  · rw [hs] at h1
    exact ⟨h1, I.n, I.p, I.w, I.cpu, I.ne, I.last⟩

theorem LooperInv.loop (n : Nat) : ∀ {i : Nat} {L : Looper}, LooperInv colloc o um uo orc N pv wi L →
    LooperInv colloc o um uo orc N pv wi (Looper.runLoop orc stop n i L).1 := by
  induction n with
  | zero => exact fun I => I
  | succ n ih =>
    intro i L I
    have I' := I.step i
    rw [runLoop_cons]
    rcases hs : L.step orc i with ⟨L', e | r⟩
    · rw [hs] at I'; exact I'
    · rw [hs] at I'; exact ih I'

theorem LooperReachable.inv (h : LooperReachable colloc o um uo orc N pv wi L) :
    LooperInv colloc o um uo orc N pv wi L := by
  induction h with
  | create hS hc =>
    rw [(create_ok hc).2.2]
    exact ⟨hS, rfl, rfl, rfl, by simp, by simp, rfl⟩
  | run stop _ ih => exact ih.loop _
  | solver _ hS ih => exact ⟨hS, ih.n, ih.p, ih.w, ih.cpu, ih.ne, ih.last⟩

/-- Two loopers that differ in the rows of `cpu_nlp` from `i` on. -/
def SameUpTo (i : Nat) (A B : Looper) : Prop :=
  A = { B with cpuNlp := A.cpuNlp } ∧ A.cpuNlp.length = B.cpuNlp.length ∧ A.cpuNlp.take i = B.cpuNlp.take i

theorem SameUpTo.step {i : Nat} {A B : Looper} (h : SameUpTo i A B) :
    (A.step orc i).2 = (B.step orc i).2 ∧
    ∀ r, (B.step orc i).2 = .ok r → SameUpTo (i + 1) (A.step orc i).1 (B.step orc i).1 := by
  obtain ⟨h1, h2, h3⟩ := h
  generalize A.cpuNlp = c at h1 h2 h3
  subst h1
  unfold Looper.step
  have : ({ B with cpuNlp := c } : Looper).sets i = B.sets i := rfl
  rw [this]
  rcases B.sets i with ⟨T, e | e⟩
  · dsimp only
    rcases T.solve orc with ⟨T', e | r⟩
    · exact ⟨rfl, fun _ h => by cases h⟩
    · refine ⟨rfl, fun _ _ => ⟨rfl, ?_, ?_⟩⟩
      · show (c.set i _).length = (B.cpuNlp.set i _).length
        rw [List.length_set, List.length_set, h2]
      · show (c.set i r.cpuTimeNlp).take (i + 1) = (B.cpuNlp.set i r.cpuTimeNlp).take (i + 1)
        apply List.ext_getElem?
        intro j
        have h3' := congrArg (fun l => l[j]?) h3
        simp only [List.getElem?_take, List.getElem?_set] at h3' ⊢
        by_cases hj : j < i + 1
        · rw [if_pos hj, if_pos hj, h2]
          by_cases hij : i = j
          · rw [if_pos hij, if_pos hij]
          · rw [if_neg hij, if_neg hij]
            rwa [if_pos (by omega), if_pos (by omega)] at h3'
        · rw [if_neg hj, if_neg hj]
  · exact ⟨rfl, fun _ h => by cases h⟩

theorem SameUpTo.loop (n : Nat) : ∀ {i : Nat} {A B : Looper}, SameUpTo i A B →
    (Looper.runLoop orc stop n i A).2 = (Looper.runLoop orc stop n i B).2 ∧
    ∀ b, (Looper.runLoop orc stop n i B).2 = .ok b →
      SameUpTo (i + n) (Looper.runLoop orc stop n i A).1 (Looper.runLoop orc stop n i B).1 := by
  induction n with
  | zero => exact fun h => ⟨rfl, fun _ _ => h⟩
  | succ n ih =>
    intro i A B h
    obtain ⟨h1, h2⟩ := h.step (orc := orc)
    rw [runLoop_cons, runLoop_cons]
    rcases hb : B.step orc i with ⟨B', e | r⟩
    · rw [hb] at h1
      rcases ha : A.step orc i with ⟨A', e' | r'⟩
      · rw [ha] at h1
        cases h1
        exact ⟨rfl, fun _ h => by cases h⟩
      · rw [ha] at h1; cases h1
    · rw [hb] at h1 h2
      rcases ha : A.step orc i with ⟨A', e' | r'⟩
      · rw [ha] at h1; cases h1
      · rw [ha] at h2
        have := ih (h2 r rfl)
        rw [show i + 1 + n = i + (n + 1) by omega] at this
        exact this

/-- States of the same length, joined at a shared state. -/
theorem sameLen_join {α : Type} {l l' : List (List α)} (h : sameLen l = true) (h' : sameLen l' = true)
    (hs : l'.head? = l.getLast?) (hne : l' ≠ []) : sameLen (l ++ l'.tail) = true := by
  cases l' with
  | nil => exact absurd rfl hne
  | cons c t =>
    have hc : c ∈ l := List.mem_of_getLast? hs.symm
    unfold sameLen at h h' ⊢
    simp only [List.all_eq_true, decide_eq_true_eq, beq_iff_eq] at h h' ⊢
    have key : ∀ a ∈ l ++ t, a.length = c.length := by
      intro a ha
      rcases List.mem_append.1 ha with ha | ha
      · exact h a ha c hc
      · exact h' a (List.mem_cons_of_mem _ ha) c List.mem_cons_self
    intro a ha b hb
    rw [key a ha, key b hb]

/-- C124: a `run` call of any looper, whatever was done with it before, does what a new looper with the same data
does that is started on the same solver object at the last state of `X_sim`: it raises if that one raises, and
otherwise appends the records of that one to what `get_results` gave before; only `cpu_nlp` is not extended but
replaced. -/
theorem C124_run_again_partial (h : Setup colloc o um uo po m oc P)
    (hL : LooperReachable colloc o um uo orc N pv wi L) (stop : Bool) :
    ∃ xm L2, L.xSim.getLast? = some xm ∧ Looper.create L.solver xm N pv wi = .ok L2 ∧
      (L.run orc stop).2 = (L2.run orc stop).2 ∧
      (∀ b R', (L.run orc stop).2 = .ok b → (L.run orc stop).1.getResults = .ok R' → ∃ R R2,
        L.getResults = .ok R ∧ (L2.run orc stop).1.getResults = .ok R2 ∧
        Joined R R2 { R' with cpuNlp := R.cpuNlp ++ R2.cpuNlp } ∧ R'.cpuNlp = R2.cpuNlp ∧
        (L.run orc stop).1.solver = (L2.run orc stop).1.solver) ∧
      ∀ b R R2, (L.run orc stop).2 = .ok b → L.getResults = .ok R →
        (L2.run orc stop).1.getResults = .ok R2 → ∃ R', (L.run orc stop).1.getResults = .ok R' := by
  have I := hL.inv
  have hcr : (∃ L0, Looper.create L.solver L.xcurrent N pv wi = .ok L0) := by
    have key : ∃ (S : Solver) (x0 : List ℝ) (L0 : Looper), Reachable colloc o um uo orc S ∧
        Looper.create S x0 N pv wi = .ok L0 := by
      induction hL with
      | create hS hc => exact ⟨_, _, _, hS, hc⟩
      | run stop hL ih => exact ih hL.inv
      | solver hL _ ih => exact ih hL.inv
    obtain ⟨S, x0, L0, hS, hc⟩ := key
    exact (C64_create_iff h I.solver L.xcurrent N pv wi).1.2
      ((C64_create_iff h hS x0 N pv wi).1.1 ⟨L0, hc⟩)
  obtain ⟨L2, hc2⟩ := hcr
  have e2 := (create_ok hc2).2.2
  refine ⟨L.xcurrent, L2, I.last, hc2, ?_⟩
  have hlen2 : L2.cpuNlp.length = N := by rw [e2]; simp
  have hn2 : L2.nSim = N := by rw [e2]
  set C0 : Looper := { L with cpuNlp := L2.cpuNlp } with hC0
  have J0 : Joins L L2 C0 [] [] := by
    rw [hC0, e2]
    exact ⟨rfl, rfl, by simp, by simp, by rw [I.last]; rfl, by rw [show _ = some L.xcurrent from I.last]; rfl,
      by simp, by simp, by simp, by simp, by simp, by simp, by simp, by simp, by simp, by simp, by simp, by simp⟩
  have hd : ∀ j, 0 ≤ j → j < 0 + N → SameData L2 C0 0 j := by
    intro j _ _
    rw [hC0, e2]
    refine ⟨?_, ?_⟩
    · show setWInit wi j = setWInit L.wInit (0 + j)
      rw [I.w, Nat.zero_add]
    · show setPRow pv j = setPRow L.pValues (0 + j)
      rw [I.p, Nat.zero_add]
  obtain ⟨q1, q2⟩ := J0.loop (orc := orc) (stop := stop) (k := 0) N rfl (i := 0) (by omega) hd
  have hU : SameUpTo 0 L C0 := ⟨rfl, by rw [I.cpu]; exact hlen2.symm, by simp⟩
  obtain ⟨u1, u2⟩ := hU.loop (orc := orc) (stop := stop) N
  have r1 : L.run orc stop = Looper.runLoop orc stop N 0 L := by unfold Looper.run; rw [I.n]
  have r2 : L2.run orc stop = Looper.runLoop orc stop N 0 L2 := by unfold Looper.run; rw [hn2]
  simp only [Nat.zero_add] at q1 q2 u1 u2
  rw [r1, r2]
  refine ⟨u1.trans q1, fun b R' hb hR' => ?_, fun b R R2 hb hR hR2 => ?_⟩
  swap
  · have hb0 := u1 ▸ hb
    obtain ⟨J, l1, -, -⟩ := q2 b (q1 ▸ hb0)
    obtain ⟨v1, -, -⟩ := u2 b hb0
    unfold Looper.getResults at hR hR2
    simp only [bind_eq_ok, check_eq_ok] at hR hR2
    obtain ⟨-, s1, -⟩ := hR
    obtain ⟨-, s2, -⟩ := hR2
    have hs := sameLen_join s1 s2 J.head J.ne
    rw [← J.x] at hs
    rw [v1]
    unfold Looper.getResults
    dsimp only
    rw [hs]
    exact ⟨_, rfl⟩
  have hb0 := u1 ▸ hb
  obtain ⟨J, l1, -, -⟩ := q2 b (q1 ▸ hb0)
  obtain ⟨v1, v2, v3⟩ := u2 b hb0
  set A' := (Looper.runLoop orc stop N 0 L).1
  set C' := (Looper.runLoop orc stop N 0 C0).1
  set B' := (Looper.runLoop orc stop N 0 L2).1
  have hcpu : C'.cpuNlp = B'.cpuNlp := by rw [J.cpu]; simp
  have hAC : A'.cpuNlp = C'.cpuNlp := by
    rw [← List.take_length (l := A'.cpuNlp), ← List.take_length (l := C'.cpuNlp), v2, hcpu, l1, hlen2]
    rwa [hcpu] at v3
  rw [hAC] at v1
  have hA : A' = C' := v1
  have J' : Joins L B' { C' with cpuNlp := L.cpuNlp ++ B'.cpuNlp } L.cpuNlp [] :=
    ⟨J.solver, J.cur, J.x, J.ne, J.head, J.last, J.steps, J.switch, by simp, J.theta, J.lam, J.alpha, J.z, J.sot,
      J.w, J.wAll, J.cost, J.status⟩
  rw [hA] at hR' ⊢
  have hs : sameLen C'.xSim = true := by
    unfold Looper.getResults at hR'
    simp only [bind_eq_ok, check_eq_ok] at hR'
    obtain ⟨-, hs, -⟩ := hR'
    exact hs
  have e3 : ∀ c, ({ C' with cpuNlp := c } : Looper).getResults
      = .ok { R' with cpuNlp := c.map (List.map fun v => v.getD 0) } := by
    intro c
    unfold Looper.getResults at hR' ⊢
    simp only [bind_eq_ok, check_eq_ok] at hR'
    obtain ⟨-, -, hR'⟩ := hR'
    cases hR'
    dsimp only
    rw [hs]
    rfl
  obtain ⟨R, R2, g1, g2, g3⟩ := J'.results (e3 _)
  have c1 : R.cpuNlp = L.cpuNlp.map (List.map fun v => v.getD 0) := by
    unfold Looper.getResults at g1
    simp only [bind_eq_ok, check_eq_ok] at g1
    obtain ⟨-, -, g1⟩ := g1
    cases g1
    rfl
  have c2 : R2.cpuNlp = B'.cpuNlp.map (List.map fun v => v.getD 0) := by
    unfold Looper.getResults at g2
    simp only [bind_eq_ok, check_eq_ok] at g2
    obtain ⟨-, -, g2⟩ := g2
    cases g2
    rfl
  refine ⟨R, R2, g1, g2, ?_, ?_, J.solver⟩
  · rw [List.map_append, ← c1, ← c2] at g3
    exact g3
  · rw [c2, ← hcpu]
    unfold Looper.getResults at hR'
    simp only [bind_eq_ok, check_eq_ok] at hR'
    obtain ⟨-, -, hR'⟩ := hR'
    cases hR'
    rfl

/-- C124 is violated by `cpu_nlp`: after two `run` calls of a looper of two steps there are four solver states,
five states and four steps, but two rows of `cpu_nlp`.  The hypotheses of `C124_run_again_partial` are met. -/
theorem C124_cpu_rows_violated : ∃ po m oc P S L L1 L2 R,
    Setup oneColloc (simOpts .allXcurrentW0Start) jumpModel none po m oc P ∧
    Reachable oneColloc (simOpts .allXcurrentW0Start) jumpModel none echoOracle S ∧
    Looper.create S [1] 2 none none = .ok L ∧
    L.run echoOracle false = (L1, .ok true) ∧ L1.run echoOracle false = (L2, .ok true) ∧
    L2.getResults = .ok R ∧
    R.status.length = 4 ∧ R.cpuNlp.length = 2 := by
  obtain ⟨po, m, oc, P, h⟩ := sim_setup .allXcurrentW0Start
  obtain ⟨hcr, hS, hr⟩ := h.create echoOracle (by simp [simOpts])
  have hL : (simOpts .allXcurrentW0Start).nfeAfter.length
      = (simOpts .allXcurrentW0Start).nStages := by
    simp [simOpts, Opts.default, Opts.nfeAfter]
  obtain ⟨L0, hc0⟩ := (C64_create_iff h hS [1] (2 + 2) none none).1.2 ⟨⟨rfl, rfl, rfl⟩, .inl rfl⟩
  obtain ⟨L0', R0, hrun0, hR0⟩ := C62_run_returns h hL hS hr Nat.one_pos rfl (fun hp => nomatch hp)
    (.inl ⟨.inl rfl, rfl⟩) (fun _ s hs s' hs' => by rw [jump_sys hs, jump_sys hs']) hc0 false
  obtain ⟨L, L1, R1, xm, T, T', R2, hc, hrun, hR1, hx, hT, hTr, hR2, -, -⟩ :=
    C119_split (N1 := 2) (N2 := 2) h hL hS hc0 hrun0 hR0
  have hl1 : LooperReachable oneColloc (simOpts .allXcurrentW0Start) jumpModel none echoOracle 2 none none L1 := by
    have := (LooperReachable.create hS hc).run false
    rwa [hrun] at this
  obtain ⟨xm', T2, hx', hT', hout, hres, hret⟩ := C124_run_again_partial h hl1 false
  have hxe : R1.xSim = L1.xSim := by
    unfold Looper.getResults at hR1
    simp only [bind_eq_ok, check_eq_ok] at hR1
    obtain ⟨-, -, g1⟩ := hR1
    cases g1
    rfl
  rw [hxe, hx'] at hx
  cases hx
  have hTT : T2 = T := by
    have : Looper.create L1.solver xm 2 none none = .ok T := hT
    rw [hT'] at this
    exact Except.ok.inj this
  subst hTT
  rw [hTr] at hout hres hret
  obtain ⟨R, hR⟩ := hret true R1 R2 hout hR1 hR2
  obtain ⟨Ra, Rb, ga, gb, J, hcpu, -⟩ := hres true R hout hR
  rw [hR1] at ga
  cases ga
  rw [show T'.getResults = .ok R2 from hR2] at gb
  cases gb
  have hS1 := (run_end h hL hS hc hrun).1
  obtain ⟨res1, _, s1, -⟩ := run_sim h hL hS hc hrun hR1
  obtain ⟨res2, _, s2, -⟩ := run_sim h hL hS1 hT hTr hR2
  refine ⟨po, m, oc, P, _, L, L1, _, R, h, hS, hc, hrun, Prod.ext rfl hout, hR, ?_, ?_⟩
  · have : R.status = R1.status ++ R2.status := J.status
    rw [this, s1.status, s2.status]
    simp
  · rw [hcpu, s2.cpu]
    simp

end

end Nosnoc
