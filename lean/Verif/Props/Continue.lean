import Verif.Proofs.Continue
import Verif.Props.Looper
/-
C119, C120: a simulation can be continued, and keeps what it has done.
-/
namespace Nosnoc

section
variable {colloc : IrkScheme → Nat → List ℝ} {o : Opts} {um : UserModel} {uo : Option UserOcp}
  {po : PreOpts} {m : PreModel} {oc : PreOcp} {P : Problem} {orc : Oracle} {S : Solver}
  {stop : Bool} {L L' L1 L1' L2 L2' : Looper} {N N1 N2 : Nat} {x0 xm : List ℝ} {pv : Option Arr}
  {wi : Option (List Arr)} {R R1 R2 : SimResults} {b b1 b2 : Bool}

/-- A run that returns ends in its last state, with a reachable solver object. -/
theorem run_end (h : Setup colloc o um uo po m oc P) (hL : o.nfeAfter.length = o.nStages)
    (hS : Reachable colloc o um uo orc S) (hc : Looper.create S x0 N pv wi = .ok L)
    (hrun : L.run orc stop = (L', .ok b)) :
    Reachable colloc o um uo orc L'.solver ∧ L'.xSim.getLast? = some L'.xcurrent := by
  obtain ⟨-, result, calls, h1, h2, rfl⟩ := run_inv h hL hS hc hrun
  have I := h2 N le_rfl
  have hn : L.nSim = N := by rw [(create_ok hc).2.2]
  refine ⟨?_, ?_⟩
  · unfold Looper.run at hrun
    rw [hn] at hrun
    obtain ⟨-, -, ok⟩ := runLoop_ok hrun
    choose! result' hres using ok
    exact loop_reachable (by rw [(create_ok hc).2.2]; exact hS) hres N le_rfl
  · rw [List.getLast?_eq_getElem?, I.number, ← I.cur]
    congr 1; omega

/-- The data of a row range. -/
theorem setPRow_rowsFrom {r c k n i : Nat} {f : Nat → Nat → ℝ} (hi : i < n) (hk : k + i < r) :
    setPRow ((some (Arr.mat r c f)).map (Arr.rowsFrom k n)) i = setPRow (some (.mat r c f)) (k + i) := by
  funext T
  simp [setPRow, Arr.rowsFrom, Arr.row, hi, hk]

/-- What one looper and the two loopers of its parts do. -/
theorem split_runs (h : Setup colloc o um uo po m oc P) (hL : o.nfeAfter.length = o.nStages)
    (hS : Reachable colloc o um uo orc S) (hc : Looper.create S x0 (N1 + N2) pv wi = .ok L) :
    ∃ L1, Looper.create S x0 N1 (pv.map (Arr.rowsFrom 0 N1)) (wi.map (List.take N1)) = .ok L1 ∧
      (∀ e, (L.run orc stop).2 = .error e → (∃ e, (L1.run orc stop).2 = .error e) ∨
        ∃ L1' b1 L2, L1.run orc stop = (L1', .ok b1) ∧ Looper.create L1'.solver L1'.xcurrent N2
          (pv.map (Arr.rowsFrom N1 N2)) (wi.map (List.drop N1)) = .ok L2 ∧
          (L2.run orc stop).2 = .error e) ∧
      ∀ b, (L.run orc stop).2 = .ok b → ∃ L1' L2 L2' b1, L1.run orc stop = (L1', .ok b1) ∧
        Looper.create L1'.solver L1'.xcurrent N2 (pv.map (Arr.rowsFrom N1 N2))
          (wi.map (List.drop N1)) = .ok L2 ∧
        L2.run orc stop = (L2', .ok b) ∧ Joins L1' L2' (L.run orc stop).1 L1'.cpuNlp [] := by
  obtain ⟨hsim, hpv⟩ := (C64_create_iff h hS x0 (N1 + N2) pv wi).1.1 ⟨L, hc⟩
  have hp1 : pv.map (Arr.rowsFrom 0 N1) = none ∨
      ∃ f, pv.map (Arr.rowsFrom 0 N1) = some (.mat N1 um.nPgl f) := by
    rcases hpv with rfl | ⟨f, rfl⟩
    · exact .inl rfl
    · exact .inr ⟨_, rfl⟩
  have hp2 : pv.map (Arr.rowsFrom N1 N2) = none ∨
      ∃ f, pv.map (Arr.rowsFrom N1 N2) = some (.mat N2 um.nPgl f) := by
    rcases hpv with rfl | ⟨f, rfl⟩
    · exact .inl rfl
    · exact .inr ⟨_, rfl⟩
  obtain ⟨L1, hc1⟩ := (C64_create_iff h hS x0 N1 (pv.map (Arr.rowsFrom 0 N1))
    (wi.map (List.take N1))).1.2 ⟨hsim, hp1⟩
  refine ⟨L1, hc1, ?_⟩
  have eL := (create_ok hc).2.2
  have eL1 := (create_ok hc1).2.2
  have hn : L.nSim = N1 + N2 := by rw [eL]
  have hn1 : L1.nSim = N1 := by rw [eL1]
  set z : List (Option ℝ) :=
    List.replicate (S.o.maxIterHomotopy + if S.o.polish then 1 else 0) (some 0) with hz
  have J0 : Joins { L1 with cpuNlp := [] } L1 L [] (List.replicate N2 z) := by
    rw [eL, eL1]
    refine ⟨rfl, rfl, rfl, by simp, rfl, rfl, rfl, rfl, ?_, rfl, rfl, rfl, rfl, rfl, rfl, rfl, rfl,
      rfl⟩
    show List.replicate (N1 + N2) z = [] ++ List.replicate N1 z ++ List.replicate N2 z
    rw [List.nil_append, List.replicate_add]
  have hd0 : ∀ j, 0 ≤ j → j < 0 + N1 → SameData L1 L 0 j := by
    intro j _ hj
    rw [Nat.zero_add] at hj
    rw [eL, eL1]
    refine ⟨?_, ?_⟩
    · show setWInit (wi.map (List.take N1)) j = setWInit wi (0 + j)
      rw [Nat.zero_add]
      cases wi with
      | none => rfl
      | some ws => funext T; simp [setWInit, hj]
    · show setPRow (pv.map (Arr.rowsFrom 0 N1)) j = setPRow pv (0 + j)
      rcases hpv with rfl | ⟨f, rfl⟩
      · rfl
      · exact setPRow_rowsFrom hj (by omega)
  have hlen1 : L1.cpuNlp.length = N1 := by rw [eL1]; simp
  obtain ⟨q1, q2⟩ := J0.loop (orc := orc) (stop := stop) (k := 0) N1 rfl (i := 0)
    (by rw [hlen1]; omega) hd0
  simp only [Nat.zero_add] at q1 q2
  have hadd := runLoop_add orc stop N1 N2 0 L
  have hrun1 : L1.run orc stop = Looper.runLoop orc stop N1 0 L1 := by unfold Looper.run; rw [hn1]
  have hrun : L.run orc stop = Looper.runLoop orc stop (N1 + N2) 0 L := by unfold Looper.run; rw [hn]
  rw [← hrun, Nat.zero_add] at hadd
  rw [← hrun1] at q1 q2
  rcases hr1 : L1.run orc stop with ⟨L1', e1 | b1⟩
  · rw [hr1] at q1
    rcases hm : Looper.runLoop orc stop N1 0 L with ⟨Lm, e' | b'⟩
    · rw [hm] at hadd
      dsimp only at hadd
      rw [hadd]
      exact ⟨fun e _ => .inl ⟨e1, rfl⟩, fun b hb => by cases hb⟩
    · rw [hm] at q1; cases q1
  · rw [hr1] at q1 q2
    rcases hm : Looper.runLoop orc stop N1 0 L with ⟨Lm, e' | b'⟩
    · rw [hm] at q1; cases q1
    rw [hm] at hadd q2
    dsimp only at hadd
    obtain ⟨J1, l1, w1, p1⟩ := q2 b1 rfl
    dsimp only at J1 l1 w1 p1
    obtain ⟨hS1, hlast⟩ := run_end h hL hS hc1 hr1
    obtain ⟨L2, hc2⟩ := (C64_create_iff h hS1 L1'.xcurrent N2 (pv.map (Arr.rowsFrom N1 N2))
      (wi.map (List.drop N1))).1.2 ⟨hsim, hp2⟩
    have eL2 := (create_ok hc2).2.2
    have hn2 : L2.nSim = N2 := by rw [eL2]
    have ho : L1'.solver.o = S.o := by rw [(hS1.inv h).opts, (hS.inv h).opts]
    have hx : Lm.xSim = L1'.xSim := by
      rw [J1.x]
      have hh := J1.head
      show L1.xSim ++ L1'.xSim.tail = L1'.xSim
      have e1 : L1.xSim = [x0] := by rw [eL1]
      have e2 : ({ L1 with cpuNlp := [] } : Looper).xSim = [x0] := e1
      rw [e2] at hh
      rw [e1]
      cases hl : L1'.xSim with
      | nil => exact absurd hl J1.ne
      | cons a l =>
        rw [hl] at hh
        simp at hh
        rw [hh]; rfl
    have J2 : Joins L1' L2 Lm L1'.cpuNlp [] := by
      have g1 := J1.steps
      have g2 := J1.switch
      have g3 := J1.cpu
      have g4 := J1.theta
      have g5 := J1.lam
      have g6 := J1.alpha
      have g7 := J1.z
      have g8 := J1.sot
      have g9 := J1.w
      have g10 := J1.wAll
      have g11 := J1.cost
      have g12 := J1.status
      rw [eL1] at g1 g2 g4 g5 g6 g7 g8 g9 g10 g11 g12
      rw [eL2]
      refine ⟨J1.solver, J1.cur, ?_, by simp, ?_, ?_, ?_, ?_, ?_, ?_, ?_, ?_, ?_, ?_, ?_, ?_, ?_, ?_⟩
      · rw [hx]; simp
      · rw [hlast]; rfl
      · rw [hx, hlast]; rfl
      · rw [g1]; simp
      · rw [g2]; simp
      · rw [g3, ho]; simp [hz]
      · rw [g4]; simp
      · rw [g5]; simp
      · rw [g6]; simp
      · rw [g7]; simp
      · rw [g8]; simp
      · rw [g9]; simp
      · rw [g10]; simp
      · rw [g11]; simp
      · rw [g12]; simp
    have hlen2 : L2.cpuNlp.length = N2 := by rw [eL2]; simp
    have hd2 : ∀ j, 0 ≤ j → j < 0 + N2 → SameData L2 Lm N1 j := by
      intro j _ hj
      rw [Nat.zero_add] at hj
      unfold SameData
      rw [w1, p1, eL, eL2]
      refine ⟨?_, ?_⟩
      · show setWInit (wi.map (List.drop N1)) j = setWInit wi (N1 + j)
        cases wi with
        | none => rfl
        | some ws => funext T; simp [setWInit]
      · show setPRow (pv.map (Arr.rowsFrom N1 N2)) j = setPRow pv (N1 + j)
        rcases hpv with rfl | ⟨f, rfl⟩
        · rfl
        · exact setPRow_rowsFrom hj (by omega)
    obtain ⟨s1, s2⟩ := J2.loop (orc := orc) (stop := stop) (k := N1) N2 (by rw [l1, hlen1]) (i := 0)
      (by rw [hlen2]; omega) hd2
    have hrun2 : L2.run orc stop = Looper.runLoop orc stop N2 0 L2 := by unfold Looper.run; rw [hn2]
    rw [Nat.add_zero, ← hadd, ← hrun2] at s1 s2
    refine ⟨fun e he => .inr ⟨L1', b1, L2, rfl, hc2, by rw [← s1]; exact he⟩, fun b hb => ?_⟩
    rw [s1] at hb
    exact ⟨L1', L2, (L2.run orc stop).1, b1, rfl, hc2, Prod.ext rfl hb, (s2 b hb).1⟩

/-- C119: a simulation of `N1 + N2` steps can be done in two parts.  Whenever its `run` returns, a looper
with the first `N1` rows of the data returns as well, and so does a second looper with the remaining rows,
started on the same solver object at the last state of the first; the second one leaves the solver object
as the long simulation does, and the dictionary of the long simulation is that of the first part followed
by that of the second, with its times shifted by the duration of the first (`Joined`). -/
theorem C119_split (h : Setup colloc o um uo po m oc P) (hL : o.nfeAfter.length = o.nStages)
    (hS : Reachable colloc o um uo orc S) (hc : Looper.create S x0 (N1 + N2) pv wi = .ok L)
    (hrun : L.run orc stop = (L', .ok b)) (hR : L'.getResults = .ok R) :
    ∃ L1 L1' R1 xm L2 L2' R2,
      Looper.create S x0 N1 (pv.map (Arr.rowsFrom 0 N1)) (wi.map (List.take N1)) = .ok L1 ∧
      L1.run orc stop = (L1', .ok true) ∧ L1'.getResults = .ok R1 ∧
      R1.xSim.getLast? = some xm ∧
      Looper.create L1'.solver xm N2 (pv.map (Arr.rowsFrom N1 N2)) (wi.map (List.drop N1)) = .ok L2 ∧
      L2.run orc stop = (L2', .ok true) ∧ L2'.getResults = .ok R2 ∧
      Joined R1 R2 R ∧ L2'.solver = L'.solver := by
  obtain ⟨L1, hc1, -, hk⟩ := split_runs (stop := stop) h hL hS hc
  obtain ⟨L1', L2, L2', b1, r1, hc2, r2, J⟩ := hk b (by rw [hrun])
  rw [hrun] at J
  obtain ⟨R1, R2, g1, g2, g3⟩ := J.results hR
  have hb1 := (run_inv h hL hS hc1 r1).1
  obtain ⟨hS1, hlast⟩ := run_end h hL hS hc1 r1
  have hb2 := (run_inv h hL hS1 hc2 r2).1
  subst hb1 hb2
  refine ⟨L1, L1', R1, L1'.xcurrent, L2, L2', R2, hc1, r1, g1, ?_, hc2, r2, g2, g3, J.solver.symm⟩
  rw [← hlast]
  unfold Looper.getResults at g1
  simp only [bind_eq_ok, check_eq_ok] at g1
  obtain ⟨-, -, g1⟩ := g1
  cases g1
  rfl

/-- C119, the converse: if the two parts return, then the long simulation returns, and its dictionary is
that of the first part followed by that of the second. -/
theorem C119_join (h : Setup colloc o um uo po m oc P) (hL : o.nfeAfter.length = o.nStages)
    (hS : Reachable colloc o um uo orc S)
    (hc : Looper.create S x0 (N1 + N2) pv wi = .ok L)
    (hc1 : Looper.create S x0 N1 (pv.map (Arr.rowsFrom 0 N1)) (wi.map (List.take N1)) = .ok L1)
    (hr1 : L1.run orc stop = (L1', .ok b1)) (hR1 : L1'.getResults = .ok R1)
    (hm : R1.xSim.getLast? = some xm)
    (hc2 : Looper.create L1'.solver xm N2 (pv.map (Arr.rowsFrom N1 N2)) (wi.map (List.drop N1))
      = .ok L2)
    (hr2 : L2.run orc stop = (L2', .ok b2)) (hR2 : L2'.getResults = .ok R2) :
    ∃ L' R, L.run orc stop = (L', .ok true) ∧ L'.getResults = .ok R ∧ Joined R1 R2 R ∧
      L'.solver = L2'.solver := by
  obtain ⟨T1, e1, herr, hk⟩ := split_runs (stop := stop) h hL hS hc
  rw [hc1] at e1
  cases e1
  obtain ⟨hS1, hlast⟩ := run_end h hL hS hc1 hr1
  have hxm : xm = L1'.xcurrent := by
    unfold Looper.getResults at hR1
    simp only [bind_eq_ok, check_eq_ok] at hR1
    obtain ⟨-, -, g1⟩ := hR1
    cases g1
    have : some xm = some L1'.xcurrent := hm.symm.trans hlast
    exact Option.some.inj this
  subst hxm
  rcases hr : L.run orc stop with ⟨L', e | b⟩
  · rcases herr e (by rw [hr]) with ⟨e', he⟩ | ⟨T1', c1, T2, t1, t2, t3⟩
    · rw [hr1] at he; cases he
    · rw [hr1] at t1
      cases t1
      rw [hc2] at t2
      cases t2
      rw [hr2] at t3
      cases t3
  · have hb := (run_inv h hL hS hc hr).1
    subst hb
    obtain ⟨T1', T2, T2', c1, t1, t2, t3, J⟩ := hk true (by rw [hr])
    rw [hr1] at t1
    cases t1
    rw [hc2] at t2
    cases t2
    rw [hr2] at t3
    cases t3
    rw [hr] at J
    -- all states have the length of the shared one
    have hs1 : sameLen L1'.xSim = true := by
      unfold Looper.getResults at hR1
      simp only [bind_eq_ok, check_eq_ok] at hR1
      obtain ⟨-, g, -⟩ := hR1
      exact g
    have hs2 : sameLen L2'.xSim = true := by
      unfold Looper.getResults at hR2
      simp only [bind_eq_ok, check_eq_ok] at hR2
      obtain ⟨-, g, -⟩ := hR2
      exact g
    have hall1 : ∀ x ∈ L1'.xSim, x.length = L1'.xcurrent.length := by
      intro x hx
      unfold sameLen at hs1
      rw [List.all_eq_true] at hs1
      have := hs1 x hx
      rw [List.all_eq_true] at this
      simpa using this _ (List.mem_of_getLast? hlast)
    have hall2 : ∀ x ∈ L2'.xSim, x.length = L1'.xcurrent.length := by
      intro x hx
      unfold sameLen at hs2
      rw [List.all_eq_true] at hs2
      have := hs2 x hx
      rw [List.all_eq_true] at this
      have hh : L1'.xcurrent ∈ L2'.xSim := List.mem_of_head? (by rw [J.head]; exact hlast)
      simpa using this _ hh
    have hs : sameLen L'.xSim = true := by
      have hall : ∀ x ∈ L'.xSim, x.length = L1'.xcurrent.length := by
        intro x hx
        rw [J.x] at hx
        rcases List.mem_append.1 hx with hx | hx
        · exact hall1 x hx
        · exact hall2 x (List.mem_of_mem_tail hx)
      unfold sameLen
      rw [List.all_eq_true]
      intro x hx
      rw [List.all_eq_true]
      intro y hy
      simp [hall x hx, hall y hy]
    obtain ⟨R, hR⟩ : ∃ R, L'.getResults = .ok R := by
      unfold Looper.getResults
      rw [hs]
      exact ⟨_, rfl⟩
    obtain ⟨Q1, Q2, k1, k2, k3⟩ := J.results hR
    rw [hR1] at k1
    rw [hR2] at k2
    cases k1
    cases k2
    exact ⟨L', R, rfl, hR, k3, J.solver⟩

/-- A loop that raises made some steps before. -/
theorem runLoop_error (n : Nat) : ∀ {i : Nat} {L L' : Looper} {e : PyErr},
    Looper.runLoop orc stop n i L = (L', .error e) →
    ∃ j < n, ∃ Lj, Looper.runLoop orc stop j i L = (Lj, .ok true) ∧
      Lj.step orc (i + j) = (L', .error e) := by
  induction n with
  | zero => intro i L L' e hr; cases hr
  | succ n ih =>
    intro i L L' e hr
    rw [runLoop_cons] at hr
    rcases hs : L.step orc i with ⟨L1, e1 | r⟩
    · rw [hs] at hr
      cases hr
      exact ⟨0, by omega, L, rfl, hs⟩
    · rw [hs] at hr
      obtain ⟨j, hj, Lj, h1, h2⟩ := ih hr
      refine ⟨j + 1, by omega, Lj, ?_, ?_⟩
      · rw [runLoop_cons, hs]; exact h1
      · rw [show i + (j + 1) = i + 1 + j by omega]; exact h2

/-- The first steps of a looper are those of a shorter one. -/
theorem first_runs (h : Setup colloc o um uo po m oc P)
    (hS : Reachable colloc o um uo orc S) (hc : Looper.create S x0 (N1 + N2) pv wi = .ok L) :
    ∃ L1, Looper.create S x0 N1 (pv.map (Arr.rowsFrom 0 N1)) (wi.map (List.take N1)) = .ok L1 ∧
      (L1.run orc stop).2 = (Looper.runLoop orc stop N1 0 L).2 ∧
      ∀ b, (L1.run orc stop).2 = .ok b →
        Joins { L1 with cpuNlp := [] } (L1.run orc stop).1 (Looper.runLoop orc stop N1 0 L).1 []
          (List.replicate N2 (List.replicate (S.o.maxIterHomotopy + if S.o.polish then 1 else 0)
            (some 0))) := by
  obtain ⟨hsim, hpv⟩ := (C64_create_iff h hS x0 (N1 + N2) pv wi).1.1 ⟨L, hc⟩
  have hp1 : pv.map (Arr.rowsFrom 0 N1) = none ∨
      ∃ f, pv.map (Arr.rowsFrom 0 N1) = some (.mat N1 um.nPgl f) := by
    rcases hpv with rfl | ⟨f, rfl⟩
    · exact .inl rfl
    · exact .inr ⟨_, rfl⟩
  obtain ⟨L1, hc1⟩ := (C64_create_iff h hS x0 N1 (pv.map (Arr.rowsFrom 0 N1))
    (wi.map (List.take N1))).1.2 ⟨hsim, hp1⟩
  refine ⟨L1, hc1, ?_⟩
  have eL := (create_ok hc).2.2
  have eL1 := (create_ok hc1).2.2
  have hn1 : L1.nSim = N1 := by rw [eL1]
  set z : List (Option ℝ) :=
    List.replicate (S.o.maxIterHomotopy + if S.o.polish then 1 else 0) (some 0) with hz
  have J0 : Joins { L1 with cpuNlp := [] } L1 L [] (List.replicate N2 z) := by
    rw [eL, eL1]
    refine ⟨rfl, rfl, rfl, by simp, rfl, rfl, rfl, rfl, ?_, rfl, rfl, rfl, rfl, rfl, rfl, rfl, rfl,
      rfl⟩
    show List.replicate (N1 + N2) z = [] ++ List.replicate N1 z ++ List.replicate N2 z
    rw [List.nil_append, List.replicate_add]
  have hd0 : ∀ j, 0 ≤ j → j < 0 + N1 → SameData L1 L 0 j := by
    intro j _ hj
    rw [Nat.zero_add] at hj
    rw [eL, eL1]
    refine ⟨?_, ?_⟩
    · show setWInit (wi.map (List.take N1)) j = setWInit wi (0 + j)
      rw [Nat.zero_add]
      cases wi with
      | none => rfl
      | some ws => funext T; simp [setWInit, hj]
    · show setPRow (pv.map (Arr.rowsFrom 0 N1)) j = setPRow pv (0 + j)
      rcases hpv with rfl | ⟨f, rfl⟩
      · rfl
      · exact setPRow_rowsFrom hj (by omega)
  have hlen1 : L1.cpuNlp.length = N1 := by rw [eL1]; simp
  obtain ⟨q1, q2⟩ := J0.loop (orc := orc) (stop := stop) (k := 0) N1 rfl (i := 0)
    (by rw [hlen1]; omega) hd0
  simp only [Nat.zero_add] at q1 q2
  have hrun1 : L1.run orc stop = Looper.runLoop orc stop N1 0 L1 := by unfold Looper.run; rw [hn1]
  rw [← hrun1] at q1 q2
  exact ⟨q1.symm, fun b hb => (q2 b hb).1⟩

/-- C120: a simulation that raises keeps what it has done.  If `run` raises, then some number `k < N` of
steps were completed, and `get_results` gives the dictionary of a simulation of just these `k` steps,
except that `cpu_nlp` has zero rows for the steps not completed. -/
theorem C120_results_after_error (h : Setup colloc o um uo po m oc P)
    (hS : Reachable colloc o um uo orc S) (hc : Looper.create S x0 N pv wi = .ok L) {e : PyErr}
    (hrun : L.run orc stop = (L', .error e)) (hR : L'.getResults = .ok R) :
    ∃ k < N, ∃ L1 L1' R1,
      Looper.create S x0 k (pv.map (Arr.rowsFrom 0 k)) (wi.map (List.take k)) = .ok L1 ∧
      L1.run orc stop = (L1', .ok true) ∧ L1'.getResults = .ok R1 ∧
      R = { R1 with
        cpuNlp := R1.cpuNlp ++ List.replicate (N - k)
          (List.replicate (S.o.maxIterHomotopy + if S.o.polish then 1 else 0) 0) } := by
  have hn : L.nSim = N := by rw [(create_ok hc).2.2]
  unfold Looper.run at hrun
  rw [hn] at hrun
  obtain ⟨k, hk, Lk, h1, h2⟩ := runLoop_error N hrun
  rw [Nat.zero_add] at h2
  rw [show N = k + (N - k) by omega] at hc
  obtain ⟨L1, hc1, q1, q2⟩ := first_runs (stop := stop) h hS hc
  rw [h1] at q1 q2
  have J := q2 true q1
  have hL' : ∃ T, L' = { Lk with solver := T } := by
    unfold Looper.step at h2
    rcases hset : Lk.sets k with ⟨T, e' | e'⟩
    · rw [hset] at h2
      dsimp only at h2
      rcases hsol : T.solve orc with ⟨T', e'' | r⟩
      · rw [hsol] at h2
        cases h2
        exact ⟨T', rfl⟩
      · rw [hsol] at h2
        cases h2
    · rw [hset] at h2
      cases h2
      exact ⟨T, rfl⟩
  obtain ⟨T, rfl⟩ := hL'
  have eL1 := (create_ok hc1).2.2
  have hx : Lk.xSim = (L1.run orc stop).1.xSim := by
    have hx := J.x
    have hh := J.head
    dsimp only at hx hh
    have e1 : L1.xSim = [x0] := by rw [eL1]
    rw [e1] at hh hx
    rw [hx]
    cases hl : (L1.run orc stop).1.xSim with
    | nil => exact absurd hl J.ne
    | cons a l =>
      rw [hl] at hh
      simp at hh
      rw [hh]; rfl
  have g1 := J.steps
  have g2 := J.switch
  have g3 := J.cpu
  have g4 := J.theta
  have g5 := J.lam
  have g6 := J.alpha
  have g7 := J.z
  have g8 := J.sot
  have g9 := J.w
  have g10 := J.wAll
  have g11 := J.cost
  have g12 := J.status
  generalize hrr : (L1.run orc stop).1 = L1' at *
  rw [eL1] at g1 g2 g4 g5 g6 g7 g8 g9 g10 g11 g12
  simp only [List.nil_append, List.sum_nil, add_zero, List.map_id'] at g1 g2 g3 g4 g5 g6 g7 g8 g9 g10 g11 g12
  unfold Looper.getResults at hR
  simp only [bind_eq_ok, check_eq_ok] at hR
  obtain ⟨-, hs, hR⟩ := hR
  rw [hx] at hs
  cases hR
  refine ⟨k, hk, L1, L1', ?_, hc1, Prod.ext hrr q1, ?_, ?_⟩
  · exact { xSim := L1'.xSim, cpuNlp := L1'.cpuNlp.map (List.map fun v => v.getD 0), timeSteps := L1'.timeSteps,
            tGrid := 0 :: cumsumFrom 0 L1'.timeSteps, thetaSim := L1'.thetaSim, lambdaSim := L1'.lambdaSim,
            alphaSim := L1'.alphaSim, zSim := L1'.zSim, sot := L1'.sot, wSim := L1'.wSim, wAll := L1'.wAll,
            costVals := L1'.costVals, status := L1'.status, switchTimes := L1'.switchTimes }
  · unfold Looper.getResults
    rw [hs]
    rfl
  · dsimp only
    rw [hx, g1, g2, g3, g4, g5, g6, g7, g8, g9, g10, g11, g12]
    simp

/-- C120: with fewer guesses in `w_init` than steps, `run` makes a step for each guess and then raises
IndexError; the results of these steps are available. -/
theorem C120_short_guesses (h : Setup colloc o um uo po m oc P) (hL : o.nfeAfter.length = o.nStages)
    (hS : Reachable colloc o um uo orc S) (hr : Ready um S) (hx : 0 < um.nX)
    (hx0 : x0.length = um.nX) (hp : o.polish = true → o.sot ≠ .local ∧ o.mpcc ≠ .boolean)
    (hU : o.pss = .stewart → ∀ s < um.nSys, ∀ s' < um.nSys,
      (um.Fmat s).nCols = (um.Fmat s').nCols)
    (hext : o.initStrategy = .external) {ws : List Arr} (hw : ∀ a ∈ ws, ∃ v, a = .vec v ∧
      v.length = S.P.form.w.length) (hk : ws.length < N)
    (hc : Looper.create S x0 N pv (some ws) = .ok L) (stop : Bool) :
    ∃ L' R, L.run orc stop = (L', .error .indexError) ∧ L'.getResults = .ok R ∧
      R.status.length = ws.length := by
  have eL := (create_ok hc).2.2
  have hn : L.nSim = N := by rw [eL]
  obtain ⟨n, hN⟩ : ∃ n, N = ws.length + (n + 1) := ⟨N - ws.length - 1, by omega⟩
  rw [hN] at hc
  obtain ⟨L1, hc1, q1, q2⟩ := first_runs (stop := stop) h hS hc
  have hws : (some ws).map (List.take ws.length) = some ws := by simp
  obtain ⟨L1', R1, hr1, hR1⟩ := C62_run_returns h hL hS hr hx hx0 hp
    (.inr ⟨hext, .inr ⟨ws, hws, le_rfl, hw⟩⟩) hU hc1 stop
  rw [hr1] at q1 q2
  have J := q2 true rfl
  rcases hm : Looper.runLoop orc stop ws.length 0 L with ⟨Lm, e | b⟩
  · rw [hm] at q1; cases q1
  rw [hm] at q1 J
  dsimp only at q1 J
  cases q1
  have hkeep : Lm.wInit = L.wInit := by
    obtain ⟨-, he, ok⟩ := runLoop_ok hm
    choose! result' hres using ok
    obtain ⟨calls, -, hI⟩ : ∃ calls : Nat → List NlpCall, True ∧ ∀ j ≤ ws.length,
        (loopAt orc L 0 j).wInit = L.wInit := by
      refine ⟨fun _ => [], trivial, fun j => ?_⟩
      induction j with
      | zero => intro _; rfl
      | succ j ih =>
        intro hj
        obtain ⟨h1, h2, h3⟩ := step_ok (hres j (by omega))
        rw [loopAt, h3]
        exact ih (by omega)
    rw [he]
    exact hI _ le_rfl
  have hrun : L.run orc stop = Looper.runLoop orc stop (ws.length + (n + 1)) 0 L := by
    unfold Looper.run
    rw [hn, hN]
  have hset : ∃ T, Lm.sets ws.length = (T, some .indexError) := by
    have e0 : Lm.solver.set .x0 (.vec Lm.xcurrent) = (Lm.solver.setX0 Lm.xcurrent, none) := rfl
    refine ⟨Lm.solver.setX0 Lm.xcurrent, ?_⟩
    unfold Looper.sets
    rw [hkeep, eL, e0]
    simp [andThen, setWInit]
  obtain ⟨T, hset⟩ := hset
  have hstep : Lm.step orc ws.length = ({ Lm with solver := T }, .error .indexError) := by
    unfold Looper.step
    rw [hset]
  refine ⟨{ Lm with solver := T }, ?_⟩
  have e1 : L.run orc stop = ({ Lm with solver := T }, .error .indexError) := by
    rw [hrun, runLoop_add, hm]
    dsimp only
    rw [runLoop_cons, Nat.zero_add, hstep]
  have eL1 := (create_ok hc1).2.2
  have hsl : sameLen Lm.xSim = true := by
    have hx := J.x
    have hh := J.head
    dsimp only at hx hh
    have e1 : L1.xSim = [x0] := by rw [eL1]
    rw [e1] at hh hx
    have : Lm.xSim = L1'.xSim := by
      rw [hx]
      cases hl : L1'.xSim with
      | nil => exact absurd hl J.ne
      | cons a l =>
        rw [hl] at hh
        simp at hh
        rw [hh]; rfl
    rw [this]
    unfold Looper.getResults at hR1
    simp only [bind_eq_ok, check_eq_ok] at hR1
    obtain ⟨-, g, -⟩ := hR1
    exact g
  refine ⟨_, e1, by unfold Looper.getResults; rw [hsl]; rfl, ?_⟩
  show Lm.status.length = _
  rw [J.status]
  obtain ⟨-, result, calls, -, h2, he⟩ := run_inv h hL hS hc1 hr1
  have hst := (h2 ws.length le_rfl).status
  rw [← he] at hst
  have e2 : L1.status = [] := by rw [eL1]
  show (L1.status ++ L1'.status).length = _
  rw [e2, hst]
  simp

/-- The theorems on splitting apply: a simulation of three steps of the jump problem, as one step and two
steps. -/
example : ∃ po m oc P S L L' R, Setup oneColloc (simOpts .allXcurrentW0Start) jumpModel none po m oc P ∧
    (simOpts .allXcurrentW0Start).nfeAfter.length = (simOpts .allXcurrentW0Start).nStages ∧
    Reachable oneColloc (simOpts .allXcurrentW0Start) jumpModel none echoOracle S ∧
    Looper.create S [1] (1 + 2) (some (.mat (1 + 2) 0 fun _ _ => 0)) none = .ok L ∧
    L.run echoOracle false = (L', .ok true) ∧ L'.getResults = .ok R ∧
    ∃ R1 R2, Joined R1 R2 R ∧ R1.status.length = 1 ∧ R2.status.length = 2 := by
  obtain ⟨po, m, oc, P, h⟩ := sim_setup .allXcurrentW0Start
  obtain ⟨hcr, hS, hr⟩ := h.create echoOracle (by simp [simOpts])
  have hL : (simOpts .allXcurrentW0Start).nfeAfter.length
      = (simOpts .allXcurrentW0Start).nStages := by
    simp [simOpts, Opts.default, Opts.nfeAfter]
  obtain ⟨L, hc⟩ := (C64_create_iff h hS [1] (1 + 2) (some (.mat (1 + 2) 0 fun _ _ => 0)) none).1.2
    ⟨⟨rfl, rfl, rfl⟩, .inr ⟨_, rfl⟩⟩
  obtain ⟨L', R, hrun, hR⟩ := C62_run_returns h hL hS hr Nat.one_pos rfl (fun hp => nomatch hp)
    (.inl ⟨.inl rfl, rfl⟩) (fun _ s hs s' hs' => by rw [jump_sys hs, jump_sys hs']) hc false
  obtain ⟨L1, L1', R1, xm, L2, L2', R2, c1, r1, g1, -, c2, r2, g2, J, -⟩ :=
    C119_split (N1 := 1) (N2 := 2) h hL hS hc hrun hR
  have hS1 := (run_end h hL hS c1 r1).1
  obtain ⟨res1, _, s1, -⟩ := run_sim h hL hS c1 r1 g1
  obtain ⟨res2, _, s2, -⟩ := run_sim h hL hS1 c2 r2 g2
  exact ⟨po, m, oc, P, _, L, L', R, h, hL, hS, hc, hrun, hR, R1, R2, J, by rw [s1.status]; simp,
    by rw [s2.status]; simp⟩

/-- ...and those on exceptions: two guesses for a simulation of three steps. -/
example : ∃ po m oc P S ws L L' R, Setup oneColloc (simOpts .external) jumpModel none po m oc P ∧
    Reachable oneColloc (simOpts .external) jumpModel none echoOracle S ∧
    Looper.create S [1] 3 none (some ws) = .ok L ∧
    L.run echoOracle false = (L', .error .indexError) ∧ L'.getResults = .ok R ∧
    R.status.length = 2 := by
  obtain ⟨po, m, oc, P, h⟩ := sim_setup .external
  obtain ⟨hcr, hS, hr⟩ := h.create echoOracle (by simp [simOpts])
  have hL : (simOpts .external).nfeAfter.length = (simOpts .external).nStages := by
    simp [simOpts, Opts.default, Opts.nfeAfter]
  obtain ⟨L, hc⟩ := (C64_create_iff h hS [1] 3 none
    (some (List.replicate 2 (.vec (List.replicate P.form.w.length 2))))).1.2 ⟨⟨rfl, rfl, rfl⟩, .inl rfl⟩
  obtain ⟨L', R, hrun, hR, hst⟩ := C120_short_guesses h hL hS hr Nat.one_pos rfl (fun hp => nomatch hp)
    (fun _ s hs s' hs' => by rw [jump_sys hs, jump_sys hs']) rfl
    (fun a ha => ⟨_, List.eq_of_mem_replicate ha, by simp⟩) (by simp) hc false
  exact ⟨po, m, oc, P, _, _, L, L', R, h, hS, hc, hrun, hR, by rw [hst]; simp⟩

end

end Nosnoc
