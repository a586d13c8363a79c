import Verif.Model.Plot
import Verif.Props.Looper
import Verif.Props.Results
import Mathlib.Tactic.Linarith
/-
C104-C106: the plot functions.
-/
namespace Nosnoc

/-! ### C104 -/

theorem zipWith_map_range (r : Nat) (f g : Nat → ℝ) :
    List.zipWith (· + ·) ((List.range r).map f) ((List.range r).map g)
      = (List.range r).map fun s => f s + g s := by
  apply List.ext_getElem?
  intro n
  simp only [List.getElem?_zipWith, List.getElem?_map]
  by_cases h : n < r
  · simp [List.getElem?_range h]
  · simp [List.getElem?_eq_none (l := List.range r) (by simpa using h)]

theorem timingBars_eq (r : Nat) (t : Nat → Nat → ℝ) : ∀ n i,
    timingBars r t (List.range' i n) ((List.range r).map fun s => ∑ k ∈ Finset.range i, t s k)
      = (List.range' i n).map fun j => Draw.bar (List.range r) ((List.range r).map fun s => t s j)
          ((List.range r).map fun s => ∑ k ∈ Finset.range j, t s k) (j + 1)
  | 0, i => rfl
  | n + 1, i => by
    rw [List.range'_succ, List.map_cons, ← timingBars_eq r t n (i + 1)]
    show Draw.bar _ _ _ _ :: timingBars r t _ (List.zipWith (· + ·) _ _) = _
    rw [zipWith_map_range]
    simp only [Finset.sum_range_succ]

/-- C104: `plot_timings` of an array with one row per simulation step and one column per homotopy iteration
draws one bar per entry, of the height of the entry, standing on the bars of the earlier iterations of
the same step; the dotted line is at the mean over the steps of the total of a step. -/
theorem C104_timings (r c : Nat) (t : Nat → Nat → ℝ) : ∃ ds, plotTimings (.mat r c t) = .ok ds ∧
    ds.length = c + 1 ∧
    (∀ i < c, ds[i]? = some (.bar (List.range r) ((List.range r).map fun s => t s i)
      ((List.range r).map fun s => ∑ k ∈ Finset.range i, t s k) (i + 1))) ∧
    (0 < r → ds[c]? = some (.meanLine [-1 / 2, r - 1 / 2]
      (List.replicate 2 (some ((∑ s ∈ Finset.range r, ∑ k ∈ Finset.range c, t s k) / r))))) := by
  have e : timingBars r t (List.range c) (List.replicate r 0)
      = (List.range c).map fun j => Draw.bar (List.range r) ((List.range r).map fun s => t s j)
          ((List.range r).map fun s => ∑ k ∈ Finset.range j, t s k) (j + 1) := by
    have := timingBars_eq r t c 0
    rw [← List.range_eq_range'] at this
    rw [← this]
    congr 1
    simp
  refine ⟨_, rfl, ?_, fun i hi => ?_, fun hr => ?_⟩
  · rw [e]; simp
  · rw [e, List.getElem?_append_left (by simpa using hi), List.getElem?_map, List.getElem?_range hi]
    rfl
  · rw [e, List.getElem?_append_right (by simp)]
    simp only [List.length_map, List.length_range, Nat.sub_self, List.getElem?_cons_zero]
    unfold meanTiming
    rw [if_neg (by omega)]
    simp only [sum_map_range]
    rfl

section
variable {colloc : IrkScheme → Nat → List ℝ} {o : Opts} {um : UserModel} {uo : Option UserOcp}
  {po : PreOpts} {m : PreModel} {oc : PreOcp} {P : Problem} {orc : Oracle} {S : Solver} {x0 : List ℝ}
  {N : Nat} {pv : Option Arr} {wi : Option (List Arr)} {L L' : Looper} {stop b : Bool} {R : SimResults}

/-- The array with the given rows. -/
def arrOfRows (rows cols : Nat) (l : List (List ℝ)) : Arr :=
  .mat rows cols fun s i => (l.getD s []).getD i 0

/-- C104: the plot of the timings of a simulation (`plot_timings(results["cpu_nlp"])`).  There is one group
of bars per homotopy iteration (and one for polishing, if enabled); on step `s`, the bars of step `s` are as
high as the CPU times of the NLP solves of this step, iterations that were not executed have height 0, and
together they reach the total CPU time of the step. -/
theorem C104_simulation (h : Setup colloc o um uo po m oc P) (hL : o.nfeAfter.length = o.nStages)
    (hS : Reachable colloc o um uo orc S) (hc : Looper.create S x0 N pv wi = .ok L)
    (hrun : L.run orc stop = (L', .ok b)) (hR : L'.getResults = .ok R) :
    ∃ before result calls, Simulation orc S L'.solver x0 N o.nfeAfter.sum before result calls R ∧
      ∃ nI ds, nI = (po.maxIterHomotopy + if po.polish then 1 else 0) ∧
        R.cpuNlp.length = N ∧ (∀ l ∈ R.cpuNlp, l.length = nI) ∧
        plotTimings (arrOfRows N nI R.cpuNlp) = .ok ds ∧ ds.length = nI + 1 ∧
        ∀ i < nI, ∃ height bottom, ds[i]? = some (.bar (List.range N) height bottom (i + 1)) ∧
          ∀ s < N, height[s]? = some (((result s).cpuTimeNlp.getD i none).getD 0) ∧
            bottom[s]? = some ((((result s).cpuTimeNlp.take i).map fun v => v.getD 0).sum) ∧
            (i + 1 = nI → bottom.getD s 0 + height.getD s 0
              = ((result s).cpuTimeNlp.map fun v => v.getD 0).sum) := by
  obtain ⟨result, calls, hsim, hst, -⟩ := run_sim h hL hS hc hrun hR
  have hlen : ∀ s < N, (result s).cpuTimeNlp.length = po.maxIterHomotopy + if po.polish then 1 else 0 := by
    intro s hs
    obtain ⟨-, -, -, -, -, -, f⟩ := solve_facts h ((hst s hs).1.inv h) (hsim.solved s hs).1
    exact f
  obtain ⟨nI, hn⟩ : ∃ nI, nI = (po.maxIterHomotopy + if po.polish then 1 else 0) := ⟨_, rfl⟩
  rw [← hn] at hlen
  obtain ⟨ds, e1, e2, e3, -⟩ := C104_timings N nI fun s i => (R.cpuNlp.getD s []).getD i 0
  have hrow : ∀ s < N, R.cpuNlp.getD s [] = (result s).cpuTimeNlp.map fun v => v.getD 0 := by
    intro s hs
    rw [hsim.cpu, List.getD_eq_getElem?_getD, List.getElem?_map, List.getElem?_range hs]
    rfl
  have hent : ∀ s < N, ∀ i, (R.cpuNlp.getD s []).getD i 0 = ((result s).cpuTimeNlp.getD i none).getD 0 := by
    intro s hs i
    rw [hrow s hs, List.getD_eq_getElem?_getD, List.getElem?_map, List.getD_eq_getElem?_getD]
    cases (result s).cpuTimeNlp[i]? <;> rfl
  have htake : ∀ s < N, ∀ i, i ≤ nI → ∑ k ∈ Finset.range i, (R.cpuNlp.getD s []).getD k 0
      = (((result s).cpuTimeNlp.take i).map fun v => v.getD 0).sum := by
    intro s hs i hi
    rw [← sum_map_range]
    congr 1
    apply List.ext_getElem?
    intro n
    rw [List.getElem?_map, List.getElem?_map, List.getElem?_take]
    by_cases hn : n < i
    · rw [List.getElem?_range hn, if_pos hn]
      have : n < (result s).cpuTimeNlp.length := by rw [hlen s hs]; omega
      rw [Option.map_some, hent s hs, List.getD_eq_getElem?_getD, List.getElem?_eq_getElem this]
      rfl
    · rw [if_neg hn, List.getElem?_eq_none (by simpa using hn)]
      rfl
  refine ⟨_, result, calls, hsim, nI, ds, hn, ?_, ?_, e1, e2, fun i hi => ⟨_, _, e3 i hi, fun s hs => ?_⟩⟩
  · rw [hsim.cpu]; simp
  · intro l hl
    rw [hsim.cpu] at hl
    obtain ⟨s, hs, rfl⟩ := List.mem_map.1 hl
    rw [List.length_map, hlen s (List.mem_range.1 hs)]
  · have g1 : ((List.range N).map fun s => (R.cpuNlp.getD s []).getD i 0)[s]?
        = some (((result s).cpuTimeNlp.getD i none).getD 0) := by
      rw [List.getElem?_map, List.getElem?_range hs, Option.map_some, hent s hs]
    have g2 : ((List.range N).map fun s => ∑ k ∈ Finset.range i, (R.cpuNlp.getD s []).getD k 0)[s]?
        = some ((((result s).cpuTimeNlp.take i).map fun v => v.getD 0).sum) := by
      rw [List.getElem?_map, List.getElem?_range hs, Option.map_some, htake s hs i hi.le]
    refine ⟨g1, g2, fun hi1 => ?_⟩
    rw [List.getD_eq_getElem?_getD, g2, List.getD_eq_getElem?_getD, g1, Option.getD_some, Option.getD_some,
      ← htake s hs i hi.le, ← hent s hs, ← Finset.sum_range_succ, htake s hs (i + 1) (by omega),
      List.take_of_length_le (by rw [hlen s hs]; omega)]

end

/-! ### C105 -/

section
variable {colloc : IrkScheme → Nat → List ℝ} {o : Opts} {um : UserModel} {uo : Option UserOcp}
  {po : PreOpts} {m : PreModel} {oc : PreOcp} {P : Problem} {x0 w : List ℝ} {ws : List (List ℝ)}

/-- C105 is violated: `plot_iterates` raises for every problem and every nonempty list of iterates. -/
theorem C105_plot_iterates_violated (o : PreOpts) (x0 : List ℝ) (P : Problem) (h : ws ≠ []) :
    ∃ e, plotIterates o x0 P ws = .error e := by
  unfold plotIterates
  split
  · exact ⟨_, rfl⟩
  · cases ws with
    | nil => exact absurd rfl h
    | cons a l =>
      have : ∃ e, plotIterate o x0 P a = .error e := by
        unfold plotIterate
        cases getResults o x0 P a <;> exact ⟨_, rfl⟩
      obtain ⟨e, he⟩ := this
      refine ⟨e, ?_⟩
      rw [List.mapM_cons, he]
      rfl

/-- C105, the exception: for a Stewart problem with a state, subsystems of the same number of regions and
an iterate of the right length, a `KeyError` (the results have no entry `mu_list`). -/
theorem C105_key_error_violated (h : Setup colloc o um uo po m oc P)
    (hL : o.nfeAfter.length = o.nStages) (hp : o.pss = .stewart) (hx : 0 < um.nX)
    (hu : ∀ s < um.nSys, ∀ s' < um.nSys, (um.Fmat s).nCols = (um.Fmat s').nCols)
    (hw : w.length = P.form.w.length) : plotIterates po x0 P (w :: ws) = .error .keyError := by
  obtain ⟨r, hr⟩ := (C61_results_partial h hL hw (x0 := x0)).2.2 hx fun _ => hu
  have e : po.pss = .stewart := by rw [h.opts]; exact hp
  unfold plotIterates
  rw [if_neg (by simp [e]), List.mapM_cons]
  have : plotIterate po x0 P w = .error .keyError := by
    unfold plotIterate
    rw [hr]
    rfl
  rw [this]
  rfl

/-- C105, what holds: nothing is drawn and nothing is raised for an empty list of iterates of a Stewart
problem. -/
theorem C105_no_iterates_partial (h : Setup colloc o um uo po m oc P) (hp : o.pss = .stewart) :
    plotIterates po x0 P [] = .ok [] := by
  have e : po.pss = .stewart := by rw [h.opts]; exact hp
  unfold plotIterates
  rw [if_neg (by simp [e])]
  rfl

end

/-! ### C106 -/

section
variable {np : Bool} {x y z t : List ℝ}

theorem foldl_min_spec : ∀ (l : List ℝ) (a : ℝ),
    l.foldl min a ∈ a :: l ∧ ∀ b ∈ a :: l, l.foldl min a ≤ b
  | [], a => by simp
  | c :: l, a => by
    obtain ⟨h1, h2⟩ := foldl_min_spec l (min a c)
    have hm := h2 (min a c) (by simp)
    refine ⟨?_, fun b hb => ?_⟩
    · rcases List.mem_cons.1 h1 with h | h
      · show l.foldl min (min a c) ∈ _
        rw [h]
        rcases min_choice a c with e | e <;> rw [e] <;> simp
      · exact List.mem_cons_of_mem _ (List.mem_cons_of_mem _ h)
    · simp only [List.mem_cons] at hb
      rcases hb with rfl | rfl | hb
      · exact hm.trans (min_le_left _ _)
      · exact hm.trans (min_le_right _ _)
      · exact h2 b (List.mem_cons_of_mem _ hb)

theorem foldl_max_spec : ∀ (l : List ℝ) (a : ℝ),
    l.foldl max a ∈ a :: l ∧ ∀ b ∈ a :: l, b ≤ l.foldl max a
  | [], a => by simp
  | c :: l, a => by
    obtain ⟨h1, h2⟩ := foldl_max_spec l (max a c)
    have hm := h2 (max a c) (by simp)
    refine ⟨?_, fun b hb => ?_⟩
    · rcases List.mem_cons.1 h1 with h | h
      · show l.foldl max (max a c) ∈ _
        rw [h]
        rcases max_choice a c with e | e <;> rw [e] <;> simp
      · exact List.mem_cons_of_mem _ (List.mem_cons_of_mem _ h)
    · simp only [List.mem_cons] at hb
      rcases hb with rfl | rfl | hb
      · exact (le_max_left _ _).trans hm
      · exact (le_max_right _ _).trans hm
      · exact h2 b (List.mem_cons_of_mem _ hb)

theorem mapM_all_ok {α β ε : Type} (f : α → Except ε β) (g : α → β) : ∀ (L : List α),
    (∀ a ∈ L, f a = .ok (g a)) → L.mapM f = .ok (L.map g)
  | [], _ => rfl
  | a :: L, h => by
    rw [List.mapM_cons, h a (by simp), mapM_all_ok f g L fun b hb => h b (by simp [hb])]
    rfl

theorem item_ok {i : Nat} (hi : i < t.length) : itemOf t i = .ok (t.getD i 0) := by
  unfold itemOf
  rw [List.getElem?_eq_getElem hi, List.getD_eq_getElem?_getD, List.getElem?_eq_getElem hi]
  rfl

theorem extrema (h0 : t ≠ []) : ∃ lo hi, pyExtremum min t = .ok lo ∧ pyExtremum max t = .ok hi ∧
    lo ∈ t ∧ hi ∈ t ∧ ∀ a ∈ t, lo ≤ a ∧ a ≤ hi := by
  cases t with
  | nil => exact absurd rfl h0
  | cons a l =>
    exact ⟨l.foldl min a, l.foldl max a, rfl, rfl, (foldl_min_spec l a).1, (foldl_max_spec l a).1,
      fun b hb => ⟨(foldl_min_spec l a).2 b hb, (foldl_max_spec l a).2 b hb⟩⟩

/-- What is drawn for coordinates of the same number. -/
theorem colored_line_eq {lo hi : ℝ} {c : Nat → Option ℝ} (hy : y.length = x.length) (hz : z.length = x.length)
    (ht : t.length = x.length) (h1 : pyExtremum min t = .ok lo) (h2 : pyExtremum max t = .ok hi)
    (hc : ∀ i, colorOf np (t.getD i 0 - lo) (hi - lo) = .ok (c i)) :
    plotColoredLine3d np x y z t = .ok ((List.range (x.length - 1)).map (fun i =>
      Draw.segment ((x.drop i).take 2) ((y.drop i).take 2) ((z.drop i).take 2) (c i))
        ++ [.scatter x y z (some t)]) := by
  unfold plotColoredLine3d plotColorHack
  rw [h1, h2]
  have := mapM_all_ok (fun i => (do
    let ti ← itemOf t i
    let c ← colorOf np (ti - lo) (hi - lo)
    segmentOf ((x.drop i).take 2) ((y.drop i).take 2) ((z.drop i).take 2) c : Except PlotErr Draw))
    (fun i => Draw.segment ((x.drop i).take 2) ((y.drop i).take 2) ((z.drop i).take 2) (c i))
    (List.range (x.length - 1)) (by
      intro i hi
      have hi := List.mem_range.1 hi
      rw [item_ok (by omega)]
      show (do
        let c ← colorOf np (t.getD i 0 - lo) _
        segmentOf _ _ _ c) = _
      rw [hc i]
      show segmentOf _ _ _ _ = _
      unfold segmentOf
      rw [if_pos (by simp [hy, hz])])
  show (do
    let l ← (List.range (x.length - 1)).mapM _
    _ : Except PlotErr (List Draw)) = _
  rw [this]
  exact if_pos ⟨hy.symm, hz.symm, ht.symm⟩

theorem take2 {i : Nat} (h : i + 1 < x.length) : (x.drop i).take 2 = [x.getD i 0, x.getD (i + 1) 0] := by
  rw [List.drop_eq_getElem_cons (by omega), List.drop_eq_getElem_cons (i := i + 1) (by omega)]
  rw [List.getD_eq_getElem?_getD, List.getD_eq_getElem?_getD, List.getElem?_eq_getElem h,
    List.getElem?_eq_getElem (by omega : i < x.length)]
  rfl

/-- C106: `plot_colored_line_3d` with at least two different times joins every point to the next by one
segment, coloured by the time of its first point: from 0 at the first time to 1 at the last. -/
theorem C106_colored_line_partial (hy : y.length = x.length) (hz : z.length = x.length)
    (ht : t.length = x.length) {a b : ℝ} (ha : a ∈ t) (hb : b ∈ t) (hab : a ≠ b) :
    ∃ ds lo hi, plotColoredLine3d np x y z t = .ok ds ∧ lo ∈ t ∧ hi ∈ t ∧ (∀ c ∈ t, lo ≤ c ∧ c ≤ hi) ∧
      lo < hi ∧ ds.length = x.length ∧
      (∀ i, i + 1 < x.length → ∃ c, ds[i]? = some (.segment [x.getD i 0, x.getD (i + 1) 0]
        [y.getD i 0, y.getD (i + 1) 0] [z.getD i 0, z.getD (i + 1) 0] (some c)) ∧
        c * (hi - lo) = t.getD i 0 - lo ∧ 0 ≤ c ∧ c ≤ 1) ∧
      ds.getLast? = some (.scatter x y z (some t)) := by
  obtain ⟨lo, hi, h1, h2, m1, m2, hb'⟩ := extrema (List.ne_nil_of_mem ha)
  have hlt : lo < hi := by
    rcases lt_or_gt_of_ne hab with h | h
    · exact (hb' a ha).1.trans_lt (h.trans_le (hb' b hb).2)
    · exact (hb' b hb).1.trans_lt (h.trans_le (hb' a ha).2)
  have hx : 0 < x.length := by rw [← ht]; exact List.length_pos_of_mem ha
  have e := colored_line_eq (np := np) (c := fun i => some ((t.getD i 0 - lo) / (hi - lo))) hy hz ht h1 h2
    fun i => by unfold colorOf; rw [if_neg (by linarith)]
  refine ⟨_, lo, hi, e, m1, m2, hb', hlt, ?_, fun i hi' => ?_, by simp⟩
  · simp; omega
  · have hm : t.getD i 0 ∈ t := by
      rw [List.getD_eq_getElem?_getD, List.getElem?_eq_getElem (by omega : i < t.length)]
      exact List.getElem_mem _
    have hp : 0 < hi - lo := by linarith
    refine ⟨(t.getD i 0 - lo) / (hi - lo), ?_, div_mul_cancel₀ _ hp.ne',
      div_nonneg (by linarith [(hb' _ hm).1]) hp.le, (div_le_one hp).2 (by linarith [(hb' _ hm).2])⟩
    rw [List.getElem?_append_left (by simp; omega), List.getElem?_map, List.getElem?_range (by omega),
      Option.map_some, take2 hi', take2 (by omega), take2 (by omega)]

/-- C106 is violated: when all times are equal, no colours are drawn: times given as Python numbers raise
a `ZeroDivisionError`, times in a numpy array give NaN. -/
theorem C106_equal_times_violated (hy : y.length = x.length) (hz : z.length = x.length)
    (ht : t.length = x.length) (hx : 2 ≤ x.length) {a : ℝ} (ha : ∀ b ∈ t, b = a) :
    plotColoredLine3d false x y z t = .error (.py .zeroDivision) ∧
    ∃ ds, plotColoredLine3d true x y z t = .ok ds ∧ ∃ X Y Z, ds[0]? = some (.segment X Y Z none) := by
  have h0 : t ≠ [] := List.ne_nil_of_length_pos (by omega)
  obtain ⟨lo, hi, h1, h2, m1, m2, -⟩ := extrema h0
  have e : hi - lo = 0 := by rw [ha _ m1, ha _ m2, sub_self]
  constructor
  · unfold plotColoredLine3d plotColorHack
    rw [h1, h2]
    obtain ⟨n, hn⟩ : ∃ n, x.length - 1 = n + 1 := ⟨x.length - 2, by omega⟩
    show (do
      let l ← (List.range (x.length - 1)).mapM _
      _ : Except PlotErr (List Draw)) = _
    rw [hn, List.range_succ_eq_map, List.mapM_cons, item_ok (by omega)]
    simp only [colorOf, e, bind, Except.bind, if_true]
    rfl
  · have := colored_line_eq (np := true) (c := fun _ => none) hy hz ht h1 h2
      fun i => by unfold colorOf; rw [if_pos e]; rfl
    refine ⟨_, this, (x.drop 0).take 2, (y.drop 0).take 2, (z.drop 0).take 2, ?_⟩
    rw [List.getElem?_append_left (by simp; omega), List.getElem?_map, List.getElem?_range (by omega)]
    rfl

theorem mapM_first_error {α β ε : Type} {f : α → Except ε β} {e : ε} {a : α} (l' : List α) (ha : f a = .error e) :
    ∀ l : List α, (∀ b ∈ l, (∃ v, f b = .ok v) ∨ f b = .error e) → (l ++ a :: l').mapM f = .error e := by
  intro l
  induction l with
  | nil =>
    intro _
    rw [List.nil_append, List.mapM_cons, ha]
    rfl
  | cons b l ih =>
    intro h
    rw [List.cons_append, List.mapM_cons]
    rcases h b List.mem_cons_self with ⟨v, hv⟩ | hv
    · rw [hv, ih fun c hc => h c (List.mem_cons_of_mem _ hc)]
      rfl
    · rw [hv]
      rfl

/-- C106: `plot_colored_line_3d` with fewer second coordinates than first ones (and enough times, not all the same)
raises `ValueError` at the first segment that cannot be drawn. -/
theorem C106_ragged (hy : y.length < x.length) (hx : 2 ≤ x.length) (ht : y.length ≤ t.length) {a b : ℝ} (ha : a ∈ t)
    (hb : b ∈ t) (hab : a ≠ b) : plotColoredLine3d np x y z t = .error (.py .valueError) := by
  obtain ⟨lo, hi, h1, h2, m1, m2, hb'⟩ := extrema (List.ne_nil_of_mem ha)
  have hlt : lo < hi := by
    rcases lt_or_gt_of_ne hab with h | h
    · exact (hb' a ha).1.trans_lt (h.trans_le (hb' b hb).2)
    · exact (hb' b hb).1.trans_lt (h.trans_le (hb' a ha).2)
  have htp : 0 < t.length := List.length_pos_of_mem ha
  have hseg : ∀ i < t.length, (do
      let ti ← itemOf t i
      let c ← colorOf np (ti - lo) (hi - lo)
      segmentOf ((x.drop i).take 2) ((y.drop i).take 2) ((z.drop i).take 2) c : Except PlotErr Draw)
      = segmentOf ((x.drop i).take 2) ((y.drop i).take 2) ((z.drop i).take 2) (some ((t.getD i 0 - lo) / (hi - lo))) := by
    intro i hi'
    rw [item_ok hi']
    show (do
      let c ← colorOf np (t.getD i 0 - lo) (hi - lo)
      segmentOf ((x.drop i).take 2) ((y.drop i).take 2) ((z.drop i).take 2) c : Except PlotErr Draw) = _
    unfold colorOf
    rw [if_neg (by linarith)]
    rfl
  have key : plotColorHack np x y z t = .error (.py .valueError) := by
    unfold plotColorHack
    rw [h1, h2]
    show (List.range (x.length - 1)).mapM _ = _
    have hlen : y.length - 1 < (List.range (x.length - 1)).length := by rw [List.length_range]; omega
    rw [← List.take_append_drop (y.length - 1) (List.range (x.length - 1)), List.drop_eq_getElem_cons hlen,
      List.getElem_range]
    refine mapM_first_error _ ?_ _ fun i hi' => ?_
    · beta_reduce
      rw [hseg _ (by omega)]
      unfold segmentOf
      rw [if_neg]
      simp only [List.length_take, List.length_drop]
      omega
    · rw [List.take_range, List.mem_range] at hi'
      beta_reduce
      rw [hseg _ (by omega)]
      unfold segmentOf
      split
      · exact .inl ⟨_, rfl⟩
      · exact .inr rfl
  unfold plotColoredLine3d
  rw [key]
  rfl

example : plotColoredLine3d true [1, 2, 3, 4] [5] [6, 7, 8, 9] [0, 1] = .error (.py .valueError) :=
  C106_ragged (by simp) (by simp) (by simp) (a := 0) (b := 1) (by simp) (by simp) (by norm_num)

/-- C106: `scatter_3d` draws every point, and numbers them from 1 if asked to. -/
theorem C106_scatter (Z : List (List ℝ)) (hZ : ∀ z ∈ Z, 3 ≤ z.length) (annotate : Bool) :
    ∃ x y z ds, scatter3d Z annotate = .ok (.scatter x y z none :: ds) ∧
      x.length = Z.length ∧ y.length = Z.length ∧ z.length = Z.length ∧
      (∀ (i : Nat) (p : List ℝ), Z[i]? = some p → x[i]? = p[0]? ∧ y[i]? = p[1]? ∧ z[i]? = p[2]?) ∧
      (annotate = false → ds = []) ∧
      (annotate = true → ds.length = Z.length ∧ ∀ (i : Nat) (p : List ℝ), Z[i]? = some p →
        ds[i]? = some (Draw.text (p.getD 0 0) (p.getD 1 0) (p.getD 2 0) (i + 1))) := by
  have hm : ∀ k < 3, Z.mapM (fun z => itemOf z k) = .ok (Z.map fun z => z.getD k 0) := fun k hk =>
    mapM_all_ok _ _ Z fun z hz => item_ok (by have := hZ z hz; omega)
  have hi : ∀ {i : Nat} {p : List ℝ}, Z[i]? = some p → ∀ k < 3, (Z.map fun z => z.getD k 0)[i]? = p[k]? := by
    intro i p hp k hk
    have := hZ p (List.mem_of_getElem? hp)
    rw [List.getElem?_map, hp, Option.map_some, List.getD_eq_getElem?_getD,
      List.getElem?_eq_getElem (by omega : k < p.length)]
    rfl
  refine ⟨Z.map fun z => z.getD 0 0, Z.map fun z => z.getD 1 0, Z.map fun z => z.getD 2 0,
    if annotate then (List.range Z.length).map fun i => Draw.text ((Z.map fun z => z.getD 0 0).getD i 0)
      ((Z.map fun z => z.getD 1 0).getD i 0) ((Z.map fun z => z.getD 2 0).getD i 0) (i + 1) else [],
    ?_, by simp, by simp, by simp, fun i p hp => ⟨hi hp 0 (by omega), hi hp 1 (by omega), hi hp 2 (by omega)⟩, ?_, ?_⟩
  · unfold scatter3d
    rw [hm 0 (by omega), hm 1 (by omega), hm 2 (by omega)]
    rfl
  · intro ha
    simp [ha]
  · intro ha
    simp only [ha, if_true]
    refine ⟨by simp, fun i p hp => ?_⟩
    have hl : i < Z.length := (List.getElem?_eq_some_iff.1 hp).1
    have hg : ∀ k < 3, (Z.map fun z => z.getD k 0).getD i 0 = p.getD k 0 := by
      intro k hk
      rw [List.getD_eq_getElem?_getD, List.getElem?_map, hp]
      rfl
    rw [List.getElem?_map, List.getElem?_range hl, Option.map_some, hg 0 (by omega), hg 1 (by omega),
      hg 2 (by omega)]

/-- The hypotheses of C106_colored_line_partial are met by a triangle passed at times 0, 2, 3 … -/
example : ∃ ds, plotColoredLine3d true [0, 1, 0] [0, 0, 1] [0, 0, 5] [0, 2, 3] = .ok ds ∧ ds.length = 3 := by
  obtain ⟨ds, lo, hi, h, -, -, -, -, hl, -⟩ := C106_colored_line_partial (np := true) (x := [0, 1, 0])
    (y := [0, 0, 1]) (z := [0, 0, 5]) (t := [0, 2, 3]) rfl rfl rfl (a := 0) (b := 2) (by simp) (by simp)
    (by norm_num)
  exact ⟨ds, h, hl⟩

/-- … those of the violation by two points at the same time. -/
example : plotColoredLine3d false [0, 1] [0, 0] [0, 0] [1, 1] = .error (.py .zeroDivision) :=
  (C106_equal_times_violated (x := [0, 1]) (y := [0, 0]) (z := [0, 0]) (t := [1, 1]) (a := 1) rfl rfl rfl
    (by simp) (by simp)).1

end

/-- The hypotheses of C104_simulation and C105_key_error_violated are met by a simulation of three steps. -/
example : ∃ po m oc P S L L' R ds, Setup oneColloc (simOpts .allXcurrentW0Start) jumpModel none po m oc P ∧
    Looper.create S [1] 3 (some (.mat 3 0 fun _ _ => 0)) none = .ok L ∧
    L.run echoOracle false = (L', .ok true) ∧ L'.getResults = .ok R ∧
    plotTimings (arrOfRows 3 (po.maxIterHomotopy + if po.polish then 1 else 0) R.cpuNlp) = .ok ds ∧
    ∀ w ws, w.length = P.form.w.length → plotIterates po [1] P (w :: ws) = .error .keyError := by
  obtain ⟨po, m, oc, P, h⟩ := sim_setup .allXcurrentW0Start
  obtain ⟨hcr, hS, hr⟩ := h.create echoOracle (by simp [simOpts])
  have hL : (simOpts .allXcurrentW0Start).nfeAfter.length
      = (simOpts .allXcurrentW0Start).nStages := by
    simp [simOpts, Opts.default, Opts.nfeAfter]
  have hu : ∀ s < jumpModel.nSys, ∀ s' < jumpModel.nSys, (jumpModel.Fmat s).nCols = (jumpModel.Fmat s').nCols :=
    fun s hs s' hs' => by rw [jump_sys hs, jump_sys hs']
  obtain ⟨L, hc⟩ := (C64_create_iff h hS [1] 3 (some (.mat 3 0 fun _ _ => 0)) none).1.2
    ⟨⟨rfl, rfl, rfl⟩, .inr ⟨_, rfl⟩⟩
  obtain ⟨L', R, hrun, hR⟩ := C62_run_returns h hL hS hr Nat.one_pos rfl (fun hp => nomatch hp)
    (.inl ⟨.inl rfl, rfl⟩) (fun _ => hu) hc false
  obtain ⟨_, _, _, -, _, ds, rfl, -, -, hd, -⟩ := C104_simulation h hL hS hc hrun hR
  exact ⟨po, m, oc, P, _, L, L', R, ds, h, hc, hrun, hR, hd, fun w ws hw =>
    C105_key_error_violated h hL rfl Nat.one_pos hu hw⟩

end Nosnoc
