import Verif.Model.Bench

/-!
# The page of a benchmark report

`util/perf/analysis.py:204-205, 433-446, 649-712, 840-885` and `envinfo.py:83-106`: the texts that come from the log of a benchmark (names of
configurations, of ways to communicate, paths, versions) are put into a page, every result into a row with its baseline.

Simplifications: texts are lists of characters. Formatted numbers (`f"{value:.1f}"`, `str(float)`) are given as texts. The parts
of the page without data (style sheet, script, headings) are left out.
-/

namespace Ez.Html
open Bench (Val Metric score)

abbrev Text := List Char

/-- `s.replace(c, by)` for one character -/
def replace (c : Char) (new : Text) (s : Text) : Text := s.flatMap (fun x => if x = c then new else [x])

/-- `_escape` (analysis.py:204-205): `html.escape(value, quote=True)`, five replacements one after the other. -/
def escape (s : Text) : Text :=
  replace '\'' "&#x27;".toList (replace '"' "&quot;".toList (replace '>' "&gt;".toList (replace '<' "&lt;".toList
    (replace '&' "&amp;".toList s))))

/-- One choice of `_options` (analysis.py:707-708) -/
def option (v : Text) : Text :=
  "<option value='".toList ++ escape v ++ "'>".toList ++ escape v ++ "</option>".toList

/-- `_options` (analysis.py:705-712) -/
def options (values : List Text) (label : Text) : Text :=
  "<label class='control'>".toList ++ escape label ++ "<select data-filter='".toList ++ escape (label.map Char.toLower) ++ "'>".toList ++
    "<option value=''>All</option>".toList ++ values.flatMap option ++ "</select></label>".toList

/-- What is shown of a `MetricDelta`: the value is formatted. -/
structure Change where
  metric : Text
  value : Text
  config : Text
  comms : Text
  clients : Nat
  size : Nat

/-- One entry of `_render_delta_list` (analysis.py:655-661) -/
def item (d : Change) : Text :=
  "<li><b>".toList ++ escape d.metric ++ "</b>: ".toList ++ escape d.value ++ " <span class='muted'>(".toList ++ escape d.config ++
    "/".toList ++ escape d.comms ++ ", n_clients=".toList ++ (toString d.clients).toList ++ ", msg_size=".toList ++
    (toString d.size).toList ++ ")</span></li>".toList

/-- `_render_delta_list` (analysis.py:649-665) -/
def deltaList (title : Text) (ds : List Change) (empty : Text) : Text :=
  if ds = [] then
    "<section><h2>".toList ++ escape title ++ "</h2><div class='muted'>".toList ++ escape empty ++ "</div></section>".toList
  else
    "<section><h2>".toList ++ escape title ++ "</h2><ol class='callout-list'>".toList ++ (ds.take 5).flatMap item ++
      "</ol></section>".toList

/-- A cell of a row (analysis.py:849-850) -/
def keyCell (v : Text) : Text := "<td class='left'>".toList ++ escape v ++ "</td>".toList

/-- What a cell of a metric is made of: the group of the metric, its style, its name, the three numbers, the mode and the
number that is shown first. -/
structure Cell where
  group : Text
  style : Text
  metric : Text
  candidate : Text
  baseline : Text
  relative : Text
  mode : Text
  shown : Text

/-- A cell of a metric (analysis.py:872-883) -/
def metricCell (c : Cell) : Text :=
  "<td class='metric-cell metric-".toList ++ escape c.group ++ "' style='".toList ++ c.style ++ "' data-metric='".toList ++
    escape c.metric ++ "' data-candidate='".toList ++ c.candidate ++ "' data-baseline='".toList ++ c.baseline ++
    "' data-relative='".toList ++ c.relative ++ "' data-mode='".toList ++ escape c.mode ++ "'>".toList ++ escape c.shown ++ "</td>".toList

/-- A row of the table (analysis.py:840-884) -/
def rowText (config comms clients size severity : Text) (cells : List Cell) : Text :=
  "<tr data-config='".toList ++ escape config ++ "' data-comms='".toList ++ escape comms ++ "' data-n_clients='".toList ++
    escape clients ++ "' data-msg_size='".toList ++ escape size ++ "' data-severity='".toList ++ severity ++ "'>".toList ++
    keyCell config ++ keyCell comms ++ keyCell clients ++ keyCell size ++ cells.flatMap metricCell ++ "</tr>".toList

/-- A record of a frame: its key and the metrics. -/
structure Rec (K : Type) where
  key : K
  val : Metric → Val

/-- The loops that fill the look-up tables (analysis.py:673-681): a later record overwrites an earlier one. -/
def table {K : Type} [DecidableEq K] (rs : List (Rec K)) : PyDict K (Rec K) := rs.foldl (fun d r => PyDict.set d r.key r) []

/-- `abs` -/
def abs (q : Rat) : Rat := if q < 0 then -q else q

/-- `max(abs(_metric_score(…)) for metric in DISPLAY_METRICS)` (analysis.py:689) -/
def severity {K : Type} (r : Rec K) : Rat :=
  Bench.metrics.foldl (fun a m => if a < abs (score m (r.val m)) then abs (score m (r.val m)) else a)
    (abs (score .sampleRateMean (r.val .sampleRateMean)))

/-- One row (analysis.py:690-701) -/
structure Row (K : Type) where
  key : K
  candidate : Rec K
  baseline : Option (Rec K)
  relative : Option (Rec K)
  severity : Rat

/-- `_build_rows` (analysis.py:668-702) -/
def buildRows {K : Type} [DecidableEq K] (candidate : List (Rec K)) (baseline relative : Option (List (Rec K))) : List (Row K) :=
  let bs := table (baseline.getD [])
  let rs := table (relative.getD [])
  candidate.map (fun r =>
    { key := r.key, candidate := r, baseline := PyDict.get? bs r.key, relative := PyDict.get? rs r.key
      severity := match PyDict.get? rs r.key with
        | some x => severity x
        | none => 0 })

/-- `_color_for_comparison` (analysis.py:433-446): green or not, and how strong; `none` is no colour. -/
def color (band : Rat) (m : Metric) (v : Val) : Option (Bool × Rat) :=
  match v with
  | .num _ =>
    let magnitude := abs (score m v)
    if magnitude ≤ band then none
    else
      let s := (magnitude - band) / 45
      let scale := if (if s < 1 then s else 1) < 0 then 0 else (if s < 1 then s else 1)
      some (decide (0 < score m v), 15 / 100 + 35 / 100 * scale)
  | _ => none

/-- `TestEnvironmentInfo.diff` (envinfo.py:83-90) -/
def diff {V : Type} [DecidableEq V] (a b : PyDict Text V) : List (Text × (Option V × Option V)) :=
  (PyDict.keys a ++ (PyDict.keys b).filter (fun k => decide (k ∉ PyDict.keys a))).filterMap (fun k =>
    if PyDict.get? a k ≠ PyDict.get? b k then some (k, (PyDict.get? a k, PyDict.get? b k)) else none)

/-- `k.ljust(width)` -/
def ljust (width : Nat) (k : Text) : Text := k ++ List.replicate (width - k.length) ' '

/-- The order of texts -/
def textLe (a b : Text) : Bool := decide (String.ofList a ≤ String.ofList b)

/-- The lines of `format_env_diff` (envinfo.py:93-102); `shown` is `str` of a value. -/
def formatDiff {V : Type} (shown : Option V → Text) (ds : List (Text × (Option V × Option V))) : List Text :=
  if ds = [] then ["No differences.".toList]
  else
    let width := (ds.map (fun d => d.1.length)).foldl max 0
    "Differences in TestEnvironmentInfo:".toList :: (AB.sort (fun x y => textLe x.1 y.1) ds).map (fun d =>
      "  ".toList ++ ljust width d.1 ++ " : ".toList ++ shown d.2.1 ++ "  !=  ".toList ++ shown d.2.2)

end Ez.Html
