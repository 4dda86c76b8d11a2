import Verif.Util.Formatter
import Verif.Wire.Message

/-!
# The monitor's display: `scaled/entry_points/top.py`

Simplifications.
* The status has been read from its JSON text (`json.loads`, 94): `Status`.
* Shares of a processor are whole numbers of thousandths, as in `Heartbeat` (message.py 343-345) and as `psutil` rounds
  them; `f"{x:.1%}"` then shows one decimal exactly.
* `f"{x:.1f}"` of a quotient is the parameter `tenths`; Util/Float says what it is.
* Cells become text (`str`) when a table is made, not when it is printed.
* `curses` is the parameter `fits`: whether `addstr` of this text at this place succeeds.
-/

namespace Verif.Util.Top

open Verif.Util Verif.Wire

/-- A text (`str`, scaled/entry_points/top.py 93-246) -/
abbrev Text := List Char

/-- A table: rows of cells (scaled/entry_points/top.py 137-227). -/
abbrev Table := List (List Text)

/-- One row of `worker_manager`, worker_manager.py 116-127, in that order. -/
structure Row where
  worker : Text
  agtCpu : Nat
  agtRss : Nat
  cpu : Nat
  rss : Nat
  free : Int
  sent : Int
  queued : Nat
  lag : Nat
  last : Int
  itl : Text
  deriving DecidableEq

/-- The status that is shown, status_reporter.py 23-26. -/
structure Status where
  cpu : Nat
  rss : Nat
  taskManager : List (Text × Nat)
  sent : List (Text × Nat)
  received : List (Text × Nat)
  clients : List (Text × Nat)
  functions : List (Text × Nat)
  workers : List Row
  deriving DecidableEq

/-- The keys of a row when it is shown (`last` is removed, 164) (scaled/entry_points/top.py). -/
inductive Column where
  | worker | agtCpu | agtRss | cpu | rss | free | sent | queued | lag | itl
  deriving DecidableEq

/-- worker_manager.py 117-126 -/
def Column.name : Column → Text
  | .worker => "worker".toList
  | .agtCpu => "agt_cpu".toList
  | .agtRss => "agt_rss".toList
  | .cpu => "cpu".toList
  | .rss => "rss".toList
  | .free => "free".toList
  | .sent => "sent".toList
  | .queued => "queued".toList
  | .lag => "lag".toList
  | .itl => "ITL".toList

/-- The keys of a row in their order (scaled/scheduler/worker_manager.py 116-127). -/
def columns : List Column := [.worker, .agtCpu, .agtRss, .cpu, .rss, .free, .sent, .queued, .lag, .itl]

/-- `SORT_BY_OPTIONS`, 22-32 (scaled/entry_points/top.py) -/
def sortOptions : List (Char × Column) :=
  [('n', .worker), ('C', .agtCpu), ('M', .agtRss), ('c', .cpu), ('m', .rss), ('f', .free), ('w', .sent), ('d', .queued), ('l', .lag)]

/-- `option in SORT_BY_OPTIONS`, 96-98; `getch` gives -1 if no key was pressed (scaled/entry_points/top.py). -/
def chooseSort (current : Column) (key : Int) : Column :=
  match sortOptions.find? fun o => (o.1.toNat : Int) == key with
  | some o => o.2
  | none => current

/-- `format_percentage` (formatter.py 25-26) of `k / 1000` -/
def percentage (k : Nat) : Text := dec (k / 10) ++ ['.'] ++ dec (k % 10) ++ ['%']

/-- The text of a formatted number (scaled/entry_points/top.py 142, 159-166). -/
def shownText (tenths : Nat → Nat → Text) : Shown → Text
  | .whole n sign unit => dec n ++ (if sign then ['+'] else []) ++ unit
  | .tenths n d unit => tenths n d ++ unit

/-- `__truncate`, 230-240; `left` is `how == "left"` (scaled/entry_points/top.py). -/
def truncate (string : Text) (number : Int) (left : Bool) : Text :=
  if number ≤ 0 then string
  else if string.length ≤ number then string
  else if left then string.take number.toNat ++ ['+']
  else ['+'] ++ string.drop (string.length - number.toNat)

/-- `__generate_keyword_data`, 137-147, for numbers (scaled/entry_points/top.py) -/
def keywordData (title : Text) (data : List (Text × Nat)) (keyColLength : Int) (formatIntegerFlag : Bool) : Table :=
  [title, []] :: data.map fun (k, v) => [truncate k keyColLength true, if formatIntegerFlag then formatInteger v else dec v]

/-- `item[sort_by]`, 155 (scaled/entry_points/top.py) -/
inductive Key where
  | text (s : Text)
  | number (i : Int)

/-- The order of strings: code points from the left (CPython; used by scaled/entry_points/top.py 155). -/
def textLe : Text → Text → Bool
  | [], _ => true
  | _ :: _, [] => false
  | a :: as, b :: bs => if a.toNat < b.toNat then true else if b.toNat < a.toNat then false else textLe as bs

/-- `<=`; strings and numbers are never compared with each other (CPython; used by scaled/entry_points/top.py 155). -/
def Key.le : Key → Key → Bool
  | .text a, .text b => textLe a b
  | .number a, .number b => decide (a ≤ b)
  | _, _ => false

/-- The value of a column, 155 (scaled/entry_points/top.py) -/
def Row.key (r : Row) : Column → Key
  | .worker => .text r.worker
  | .agtCpu => .number r.agtCpu
  | .agtRss => .number r.agtRss
  | .cpu => .number r.cpu
  | .rss => .number r.rss
  | .free => .number r.free
  | .sent => .number r.sent
  | .queued => .number r.queued
  | .lag => .number r.lag
  | .itl => .text r.itl

/-- Put a row before the rows with the same or a smaller key (scaled/entry_points/top.py 155). -/
def insertRow (c : Column) (r : Row) : List Row → List Row
  | [] => [r]
  | x :: l => if (x.key c).le (r.key c) then r :: x :: l else x :: insertRow c r l

/-- `sorted(wm_data, key=..., reverse=True)`, 155: descending and stable (scaled/entry_points/top.py). -/
def sortRows (c : Column) : List Row → List Row
  | [] => []
  | r :: l => insertRow c r (sortRows c l)

/-- One row, 158-166; all exceptions are `ValueError` (scaled/entry_points/top.py). -/
def rowCells (tenths : Nat → Nat → Text) (workerLength : Int) (r : Row) : Py (List Text) := do
  let agtRss ← formatBytes r.agtRss
  let rss ← formatBytes r.rss
  let last : Text := if r.last > 5 then ['('] ++ formatSeconds r.last.toNat ++ [')', ' '] else []
  let lag ← formatMicros r.lag
  return [truncate r.worker workerLength true, percentage r.agtCpu, shownText tenths agtRss, percentage r.cpu, shownText tenths rss,
    decInt r.free, decInt r.sent, dec r.queued, last ++ shownText tenths lag, r.itl]

/-- The rows, 157-166 with 169 (scaled/entry_points/top.py). -/
def rowsCells (tenths : Nat → Nat → Text) (workerLength : Int) : List Row → Py Table
  | [] => .ok []
  | r :: l => do
    let cells ← rowCells tenths workerLength r
    let rest ← rowsCells tenths workerLength l
    return cells :: rest

/-- `__generate_worker_manager_table`, 150-170 (scaled/entry_points/top.py) -/
def workerTable (tenths : Nat → Nat → Text) (rows : List Row) (workerLength : Int) (sortBy : Column) : Py Table :=
  match rows with
  | [] => .ok [["No workers".toList]]
  | _ :: _ => do
    let cells ← rowsCells tenths workerLength (sortRows sortBy rows)
    return (columns.map fun v => if v = sortBy then ['['] ++ v.name ++ [']'] else v.name) :: cells

/-- `__merge_tables`, 189-214.  A missing row is as wide as the first row (scaled/entry_points/top.py). -/
def mergeTables (left right : Table) (padding : Text) : Table :=
  match left, right with
  | [], _ => right
  | _ :: _, [] => left
  | l0 :: _, r0 :: _ =>
    (List.range (max left.length right.length)).map fun i =>
      let leftRow := (left[i]?).getD (List.replicate l0.length [])
      let rightRow := (right[i]?).getD (List.replicate r0.length [])
      if padding = [] then leftRow ++ rightRow else leftRow ++ [padding] ++ rightRow

/-- The greatest number (scaled/entry_points/top.py 177 and 218). -/
def maxOf (l : List Nat) : Nat := l.foldl max 0

/-- `__concat_tables`, 217-227; `max` of nothing raises (scaled/entry_points/top.py). -/
def concatTables (up down : Table) (padding : Nat) : Py Table :=
  if up ++ down = [] then .error .valueError
  else
    let maxCols := maxOf ((up ++ down).map (·.length))
    let widen := fun (row : List Text) => row ++ List.replicate (maxCols - row.length) []
    .ok (up.map widen ++ List.replicate padding (List.replicate maxCols []) ++ down.map widen)

/-- `addstr` (scaled/entry_points/top.py 180 and 184) -/
structure Write where
  line : Nat
  col : Nat
  text : Text
  deriving DecidableEq

/-- `str.rjust` (scaled/entry_points/top.py 180 and 184) -/
def rjust (s : Text) (n : Nat) : Text := List.replicate (n - s.length) ' ' ++ s

/-- `len(str(row[i]))` of all rows, 177 (scaled/entry_points/top.py) -/
def lengthsAt (i : Nat) : Table → Py (List Nat)
  | [] => .ok []
  | row :: l => do
    let cell ← pyIndex row i
    let rest ← lengthsAt i l
    return cell.length :: rest

/-- `col_widths`, 177 (scaled/entry_points/top.py) -/
def widthsOf (data : Table) : List Nat → Py (List Nat)
  | [] => .ok []
  | i :: is => do
    let ls ← lengthsAt i data
    let rest ← widthsOf data is
    return maxOf ls :: rest

/-- One line, 179-180 and 183-184, from column `j` on (scaled/entry_points/top.py). -/
def lineWrites (widths : List Nat) (padding line : Nat) : Nat → List Text → Py (List Write)
  | _, [] => .ok []
  | j, cell :: row => do
    let w ← pyIndex widths j
    let rest ← lineWrites widths padding line (j + 1) row
    return ⟨line, (widths.take j).sum + padding * j, rjust cell w⟩ :: rest

/-- All lines, 179-184 (scaled/entry_points/top.py). -/
def linesWrites (widths : List Nat) (padding : Nat) : Nat → Table → Py (List Write)
  | _, [] => .ok []
  | line, row :: data => do
    let ws ← lineWrites widths padding line 0 row
    let rest ← linesWrites widths padding (line + 1) data
    return ws ++ rest

/-- `__print_table`, 173-186: what is written, and the returned next line and width (scaled/entry_points/top.py). -/
def printTable (line : Nat) (data : Table) (padding : Nat) : Py (List Write × Option (Nat × Nat)) :=
  match data with
  | [] => .ok ([], none)
  | header :: _ => do
    let widths ← widthsOf data (List.range header.length)
    let ws ← linesWrites widths padding line data
    return (ws, some (line + data.length, widths.sum + padding * widths.length))

/-- What is done to the screen (scaled/entry_points/top.py 119-134 and 243-246). -/
inductive Draw where
  | clear
  | put (w : Write)
  | refresh
  deriving DecidableEq

/-- Writes up to the first one that does not fit (scaled/entry_points/top.py 119-132). -/
def attempt (fits : Write → Bool) : List Write → List Draw × Bool
  | [] => ([], true)
  | w :: ws =>
    if fits w then
      let (l, b) := attempt fits ws
      (.put w :: l, b)
    else ([], false)

/-- The line of shortcuts, 128 (scaled/entry_points/top.py) -/
def shortcuts : Text :=
  "Shortcuts: ".toList ++ List.intercalate [' '] (sortOptions.map fun o => o.2.name ++ ['['] ++ [o.1] ++ [']'])

/-- `__print_too_small`, 243-246; `curses.error` is not caught here (scaled/entry_points/top.py). -/
def tooSmall (fits : Write → Bool) : Py (List Draw) :=
  let w : Write := ⟨0, 0, "Your terminal is too small to show".toList⟩
  if fits w then .ok [.clear, .put w, .refresh] else .error .cursesError

/-- `table1`, 100-114 (scaled/entry_points/top.py) -/
def table1 (tenths : Nat → Nat → Text) (st : Status) : Py Table := do
  let rss ← formatBytes st.rss
  let scheduler : Table := [["scheduler".toList, []], ["cpu".toList, percentage st.cpu], ["rss".toList, shownText tenths rss]]
  let t := mergeTables scheduler (keywordData "task_manager".toList st.taskManager 0 true) ['|']
  let t := mergeTables t (keywordData "scheduler_sent".toList st.sent 0 true) ['|']
  return mergeTables t (keywordData "scheduler_received".toList st.received 0 true) ['|']

/-- `table3`, 106-117 (scaled/entry_points/top.py) -/
def table3 (tenths : Nat → Nat → Text) (st : Status) (sortBy : Column) : Py Table := do
  let workers ← workerTable tenths st.workers 24 sortBy
  let t2 ← concatTables (keywordData "client_manager".toList st.clients 18 false) (keywordData "func_to_num_tasks".toList st.functions 18 false) 1
  return mergeTables workers t2 ['|']

/-- `show_status`, 93-134: the new `sort_by` and what is drawn (scaled/entry_points/top.py). -/
def showStatus (fits : Write → Bool) (tenths : Nat → Nat → Text) (sortBy : Column) (key : Int) (st : Status) : Py (Column × List Draw) := do
  let sortBy := chooseSort sortBy key
  let t1 ← table1 tenths st
  let t3 ← table3 tenths st sortBy
  let (w1, r1) ← printTable 0 t1 1
  match attempt fits w1 with
  | (d1, false) => do
    let d ← tooSmall fits
    return (sortBy, .clear :: d1 ++ d)
  | (d1, true) => do
    let (newRow, maxCols) ← orRaise r1 .typeError
    let (w3, _) ← printTable (newRow + 4) t3 1
    let (d3, _) := attempt fits (
      ⟨newRow, 0, List.replicate maxCols '-'⟩ ::
      ⟨newRow + 1, 0, shortcuts⟩ ::
      ⟨newRow + 3, 0, "Total ".toList ++ dec st.workers.length ++ " worker(s)".toList⟩ :: w3)
    return (sortBy, .clear :: d1 ++ d3 ++ [.refresh])

/-- How `subscribe_status` ends (scaled/entry_points/top.py 66-90). -/
inductive Ending where
  | waiting | returned | raised (e : PyErr)
  deriving DecidableEq

/-- `subscribe_status`, 66-90: the states shown, and how it goes on after these frames.  An empty list of frames ends the
loop (73) (scaled/entry_points/top.py). -/
def subscribe : List (List Bytes) → List Bytes × Ending
  | [] => ([], .waiting)
  | [] :: _ => ([], .returned)
  | [_] :: l => subscribe l
  | (tag :: p :: ps) :: l =>
    match MessageType.members.find? fun m => m.value == tag with
    | none => ([], .returned)
    | some ty =>
      match deserialize ty (p :: ps) with
      | .error e => ([], .raised e)
      | .ok (.schedulerState data) =>
        let (shown, e) := subscribe l
        (data :: shown, e)
      | .ok _ => subscribe l

end Verif.Util.Top
