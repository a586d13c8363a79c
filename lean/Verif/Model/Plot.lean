import Verif.Model.Looper
/-
Model of nosnoc/plot_utils.py: what is handed to matplotlib.  Styles, labels of axes, legends and files
are left out; `plot_voronoi_2d` (scipy) and `latexify_plot` (settings) are not modelled.
-/
namespace Nosnoc

/-- What is drawn.  `none` stands for NaN. -/
inductive Draw
  /-- `plt.bar(x, height, bottom=…, label='homotopy iter …')` -/
  | bar (x : List Nat) (height bottom : List ℝ) (iter : Nat)
  /-- the dotted line of `plot_timings` -/
  | meanLine (x : List ℝ) (y : List (Option ℝ))
  /-- `ax.plot(…)` of a piece of a line in space, `color` the argument of the colour map -/
  | segment (x y z : List ℝ) (color : Option ℝ)
  /-- `ax.scatter(x, y, z)`, coloured by `c` if given -/
  | scatter (x y z : List ℝ) (c : Option (List ℝ))
  /-- `ax.text(…, "p…")` -/
  | text (x y z : ℝ) (number : Nat)

/-- Exceptions of the plot functions: `KeyError` besides those of the functions called. -/
inductive PlotErr
  | keyError
  | py (e : PyErr)

/-- plot_utils.py:37-40: the loop over the columns `l`; `y` holds the tops of the bars so far. -/
noncomputable def timingBars (rows : Nat) (t : Nat → Nat → ℝ) : List Nat → List ℝ → List Draw
  | [], _ => []
  | i :: l, y =>
    let col := (List.range rows).map fun s => t s i
    .bar (List.range rows) col y (i + 1) :: timingBars rows t l (List.zipWith (· + ·) y col)

/-- plot_utils.py:42: `np.mean(np.sum(timings, axis=1))`; the mean of nothing is NaN. -/
noncomputable def meanTiming (rows cols : Nat) (t : Nat → Nat → ℝ) : Option ℝ :=
  if rows = 0 then none
  else some (((List.range rows).map fun s => ((List.range cols).map (t s)).sum).sum / rows)

/-- plot_utils.py:27-60 `plot_timings` for an array; `timings.shape[1]` raises for one dimension. -/
noncomputable def plotTimings : Arr → Except PlotErr (List Draw)
  | .vec _ => .error (.py .indexError)
  | .mat rows cols t =>
    let m := meanTiming rows cols t
    .ok (timingBars rows t (List.range cols) (List.replicate rows 0) ++
      [.meanLine [-1 / 2, rows - 1 / 2] [m, m]])

/-- `results['mu_list']`: `get_results_from_primal_vector` (solver.py:472-539) has no such entry; the
line that would make it is commented out (solver.py:489). -/
def Results.muList (_ : Results) : Except PlotErr (List (List (List ℝ))) := .error .keyError

/-- plot_utils.py:79-118: one iterate.  `flatten_layer(…, 2)` of a list of matrices changes nothing;
flattening the outer layer concatenates the rows.  What would be drawn after `mu_list` has been read is
never reached and left out. -/
noncomputable def plotIterate (o : PreOpts) (x0 : List ℝ) (P : Problem) (w : List ℝ) :
    Except PlotErr (List Draw) :=
  match getResults o x0 P w with
  | .error e => .error (.py e)
  | .ok r => match r.muList with
    | .error e => .error e
    | .ok _ => .ok []

/-- plot_utils.py:62-124 `plot_iterates` (`title_list` left out). -/
noncomputable def plotIterates (o : PreOpts) (x0 : List ℝ) (P : Problem) (ws : List (List ℝ)) :
    Except PlotErr (List Draw) :=
  if o.pss ≠ .stewart then .error (.py .notImplemented)
  else do
    let l ← ws.mapM (plotIterate o x0 P)
    .ok l.flatten

/-- `min(t)`, `max(t)` of Python: empty sequences raise. -/
def pyExtremum (f : ℝ → ℝ → ℝ) : List ℝ → Except PlotErr ℝ
  | [] => .error (.py .valueError)
  | a :: l => .ok (l.foldl f a)

/-- `l[i]`. -/
def itemOf (l : List ℝ) (i : Nat) : Except PlotErr ℝ := match l[i]? with
  | some v => .ok v
  | none => .error (.py .indexError)

/-- plot_utils.py:183-190: `(t[i] - t_min) / dt`; a division of Python floats by zero raises, of
numpy floats (`np`) it gives NaN. -/
noncomputable def colorOf (np : Bool) (a dt : ℝ) : Except PlotErr (Option ℝ) :=
  if dt = 0 then (if np then .ok none else .error (.py .zeroDivision)) else .ok (some (a / dt))

/-- `ax.plot(x, y, z)`: matplotlib raises `ValueError` for different numbers of coordinates. -/
def segmentOf (x y z : List ℝ) (c : Option ℝ) : Except PlotErr Draw :=
  if x.length = y.length ∧ x.length = z.length then .ok (.segment x y z c) else .error (.py .valueError)

/-- plot_utils.py:183-190 `_plot_color_hack_3d`; `np`: `t` is a numpy array. -/
noncomputable def plotColorHack (np : Bool) (x y z t : List ℝ) : Except PlotErr (List Draw) := do
  let tMin ← pyExtremum min t
  let tMax ← pyExtremum max t
  (List.range (x.length - 1)).mapM fun i => do
    let ti ← itemOf t i
    let c ← colorOf np (ti - tMin) (tMax - tMin)
    segmentOf ((x.drop i).take 2) ((y.drop i).take 2) ((z.drop i).take 2) c

/-- plot_utils.py:193-217 `plot_colored_line_3d`: matplotlib raises `ValueError` for coordinates or
colours of different numbers. -/
noncomputable def plotColoredLine3d (np : Bool) (x y z t : List ℝ) : Except PlotErr (List Draw) := do
  let l ← plotColorHack np x y z t
  if x.length = y.length ∧ x.length = z.length ∧ x.length = t.length then
    .ok (l ++ [.scatter x y z (some t)])
  else .error (.py .valueError)

/-- plot_utils.py:152-181 `scatter_3d` for points given as lists. -/
noncomputable def scatter3d (Z : List (List ℝ)) (annotate : Bool) : Except PlotErr (List Draw) := do
  let x ← Z.mapM fun z => itemOf z 0
  let y ← Z.mapM fun z => itemOf z 1
  let z ← Z.mapM fun z => itemOf z 2
  let texts := (List.range Z.length).map fun i =>
    Draw.text (x.getD i 0) (y.getD i 0) (z.getD i 0) (i + 1)
  .ok (.scatter x y z none :: if annotate then texts else [])

end Nosnoc
