import Verif.Util.Top
import Verif.Spec.Readable

/-!
# What the monitor's display should look like

Independent of the drawing functions.
-/

namespace Verif.Spec.Top

open Verif.Util.Top Verif.Util Verif.Wire

/-- All rows have `n` cells. -/
def Wide (n : Nat) (t : Table) : Prop := ∀ row ∈ t, row.length = n

/-- The cell in row `i` and column `j`; beyond the table it is empty. -/
def cell (t : Table) (i j : Nat) : Text := ((t[i]?.getD [])[j]?).getD []

/-- How wide column `j` must be: as wide as its widest cell. -/
def Width (t : Table) (j w : Nat) : Prop := (∀ i, (cell t i j).length ≤ w) ∧ ∃ i, (cell t i j).length = w

/-- Where the columns start: `gap` characters between two columns, the first one at 0. -/
def Start (w : Nat → Nat) (gap : Nat) : Nat → Nat
  | 0 => 0
  | j + 1 => Start w gap j + w j + gap

/-- A table drawn from a line on: every cell of it, row by row, at the right end of its column. -/
def drawn (line gap : Nat) (w : Nat → Nat) (t : Table) : List Write :=
  t.zipIdx.flatMap fun (row, i) => row.zipIdx.map fun (c, j) =>
    ⟨line + i, Start w gap j, List.replicate (w j - c.length) ' ' ++ c⟩

/-- Two texts on the screen do not touch each other's characters. -/
def Apart (x y : Write) : Prop := x.line = y.line → x.col + x.text.length ≤ y.col ∨ y.col + y.text.length ≤ x.col

/-- Alphabetical order: `b` continues `a`, or at the first difference `b` has the greater code point. -/
def TextBefore (a b : Text) : Prop :=
  (∃ x r, b = a ++ x :: r) ∨ ∃ p x y r r', x.toNat < y.toNat ∧ a = p ++ x :: r ∧ b = p ++ y :: r'

/-- The value of the row in column `c` is smaller. -/
def Below (a b : Row) : Column → Prop
  | .worker => TextBefore a.worker b.worker
  | .agtCpu => a.agtCpu < b.agtCpu
  | .agtRss => a.agtRss < b.agtRss
  | .cpu => a.cpu < b.cpu
  | .rss => a.rss < b.rss
  | .free => a.free < b.free
  | .sent => a.sent < b.sent
  | .queued => a.queued < b.queued
  | .lag => a.lag < b.lag
  | .itl => TextBefore a.itl b.itl

/-- Sorted so that the greatest comes first. -/
def Descending (c : Column) (l : List Row) : Prop := l.Pairwise fun a b => ¬ Below a b c

/-- The value in column `c` is the same. -/
def sameKey (c : Column) (r : Row) (x : Row) : Bool :=
  match c with
  | .worker => x.worker == r.worker
  | .agtCpu => x.agtCpu == r.agtCpu
  | .agtRss => x.agtRss == r.agtRss
  | .cpu => x.cpu == r.cpu
  | .rss => x.rss == r.rss
  | .free => x.free == r.free
  | .sent => x.sent == r.sent
  | .queued => x.queued == r.queued
  | .lag => x.lag == r.lag
  | .itl => x.itl == r.itl

/-- Name shown: cut after `n` characters. -/
def cut (n : Nat) (s : Text) : Text := if n < s.length then s.take n ++ ['+'] else s

/-- Line `i` of a list with a title. -/
def entry (title : Text) (data : List (Text × Text)) : Nat → List Text
  | 0 => [title, []]
  | i + 1 =>
    match data[i]? with
    | some (k, v) => [k, v]
    | none => [[], []]

/-- A number of bytes: below 1024k without decimals. -/
def Bytesize (tenths : Nat → Nat → Text) (n : Nat) (s : Text) : Prop :=
  (n < 1024 ∧ s = dec n ++ ['b']) ∨ (1024 ≤ n ∧ n < 1024 ^ 2 ∧ s = dec (n / 1024) ++ ['k']) ∨
  (1024 ^ 2 ≤ n ∧ n < 1024 ^ 3 ∧ s = tenths n (1024 ^ 2) ++ ['m']) ∨ (1024 ^ 3 ≤ n ∧ n < 1024 ^ 4 ∧ s = tenths n (1024 ^ 3) ++ ['g']) ∨
  (1024 ^ 4 ≤ n ∧ n < 1024 ^ 5 ∧ s = tenths n (1024 ^ 4) ++ ['t'])

/-- A number of microseconds. -/
def Duration (tenths : Nat → Nat → Text) (n : Nat) (s : Text) : Prop :=
  (n < 1000 ∧ s = tenths n 1000 ++ ['m', 's']) ∨ (1000 ≤ n ∧ n < 1000 ^ 2 ∧ s = dec (n / 1000) ++ ['m', 's']) ∨
  (1000 ^ 2 ≤ n ∧ n < 1000 ^ 3 ∧ s = dec (n / 1000 ^ 2) ++ ['s'])

/-- How long ago the last heartbeat was, if it is more than five seconds. -/
def ago (last : Int) : Text :=
  if last ≤ 5 then [] else if last ≤ 60 then ['('] ++ decInt last ++ ['s', ')', ' '] else ['(', '6', '0', '+', 's', ')', ' ']

/-- Thousandths as a percentage with one decimal. -/
def percent (k : Nat) : Text := dec (k / 10) ++ '.' :: dec (k % 10) ++ ['%']

/-- The line of a worker. -/
def WorkerLine (tenths : Nat → Nat → Text) (r : Row) (cells : List Text) : Prop :=
  ∃ a b l, Bytesize tenths r.agtRss a ∧ Bytesize tenths r.rss b ∧ Duration tenths r.lag l ∧
    cells = [cut 24 r.worker, percent r.agtCpu, a, percent r.cpu, b, decInt r.free, decInt r.sent, dec r.queued, ago r.last ++ l, r.itl]

/-- The titles, the chosen one in brackets. -/
def titles (c : Column) : List Text :=
  [(Column.worker, "worker"), (.agtCpu, "agt_cpu"), (.agtRss, "agt_rss"), (.cpu, "cpu"), (.rss, "rss"), (.free, "free"),
    (.sent, "sent"), (.queued, "queued"), (.lag, "lag"), (.itl, "ITL")].map
    fun p => if p.1 = c then "[".toList ++ p.2.toList ++ "]".toList else p.2.toList

/-- Line `i` of the list of workers. -/
def WorkerPart (tenths : Nat → Nat → Text) (sorted : List Row) (c : Column) (i : Nat) (cells : List Text) : Prop :=
  match sorted, i with
  | [], 0 => cells = ["No workers".toList]
  | [], _ + 1 => cells = [[]]
  | _ :: _, 0 => cells = titles c
  | _ :: _, i + 1 =>
    match sorted[i]? with
    | some r => WorkerLine tenths r cells
    | none => cells = List.replicate 10 []

/-- The line between two lists; it is as long as what is left of it and the list right of it. -/
def bar (height i : Nat) : List Text := if i < height then [['|']] else [[]]

/-- The upper table. -/
structure Upper (tenths : Nat → Nat → Text) (st : Status) (t : Table) : Prop where
  height : t.length = 1 + max (max (max 2 st.taskManager.length) st.sent.length) st.received.length
  line : ∃ rss, Bytesize tenths st.rss rss ∧ ∀ i, i < t.length → t[i]? = some (
    entry "scheduler".toList [("cpu".toList, percent st.cpu), ("rss".toList, rss)] i ++
    bar (1 + max 2 st.taskManager.length) i ++
    entry "task_manager".toList (st.taskManager.map fun p => (p.1, formatInteger p.2)) i ++
    bar (1 + max (max 2 st.taskManager.length) st.sent.length) i ++
    entry "scheduler_sent".toList (st.sent.map fun p => (p.1, formatInteger p.2)) i ++ [['|']] ++
    entry "scheduler_received".toList (st.received.map fun p => (p.1, formatInteger p.2)) i)

/-- Line `i` of the two lists beside the workers, one below the other with an empty line between them. -/
def side (st : Status) (i : Nat) : List Text :=
  if i ≤ st.clients.length then entry "client_manager".toList (st.clients.map fun p => (cut 18 p.1, dec p.2)) i
  else if i = st.clients.length + 1 then [[], []]
  else entry "func_to_num_tasks".toList (st.functions.map fun p => (cut 18 p.1, dec p.2)) (i - (st.clients.length + 2))

/-- The lower table. -/
structure Lower (tenths : Nat → Nat → Text) (st : Status) (c : Column) (t : Table) : Prop where
  height : t.length = max (st.workers.length + 1) (st.clients.length + st.functions.length + 3)
  line : ∃ sorted : List Row, sorted.Perm st.workers ∧ Descending c sorted ∧
    (∀ r ∈ st.workers, sorted.filter (sameKey c r) = st.workers.filter (sameKey c r)) ∧
    ∀ i, i < t.length → ∃ cells, WorkerPart tenths sorted c i cells ∧ t[i]? = some (cells ++ [['|']] ++ side st i)

/-- The sizes and times that can be shown. -/
def Showable (st : Status) : Prop :=
  st.rss < 1024 ^ 5 ∧ ∀ r ∈ st.workers, r.agtRss < 1024 ^ 5 ∧ r.rss < 1024 ^ 5 ∧ r.lag < 1000 ^ 3

/-- The key pressed chooses the column. -/
def Chosen (current : Column) (key : Int) (c : Column) : Prop :=
  let keys : List (Nat × Column) := [(110, .worker), (67, .agtCpu), (77, .agtRss), (99, .cpu), (109, .rss), (102, .free), (119, .sent), (100, .queued), (108, .lag)]
  (∃ n : Nat, key = n ∧ (n, c) ∈ keys) ∨ ((∀ p ∈ keys, key ≠ p.1) ∧ c = current)

/-- What is shown of the frames received, and how it goes on: states are shown, other messages and single frames are
skipped, an unknown tag ends the loop quietly, an unreadable payload with an error. -/
inductive Watch : List (List Bytes) → List Bytes → Ending → Prop
  | wait : Watch [] [] .waiting
  | empty (l) : Watch ([] :: l) [] .returned
  | single {l s e} (x) : Watch l s e → Watch ([x] :: l) s e
  | unknown (tag p ps l) : (∀ ty, tag ≠ ascii (tagWord ty)) → Watch ((tag :: p :: ps) :: l) [] .returned
  | unreadable (ty p ps l err) : ¬ Readable ty (p :: ps) → Watch ((ascii (tagWord ty) :: p :: ps) :: l) [] (.raised err)
  | state {l s e} (p ps) : Watch l s e → Watch ((ascii ['S', 'S'] :: p :: ps) :: l) (p :: s) e
  | other {l s e} (ty p ps) : ty ≠ .schedulerState → Readable ty (p :: ps) → Watch l s e →
      Watch ((ascii (tagWord ty) :: p :: ps) :: l) s e

/-- The three lines between the tables: a rule, the keys, the number of workers. -/
def between (line width workers : Nat) : List Write :=
  [⟨line, 0, List.replicate width '-'⟩,
   ⟨line + 1, 0, "Shortcuts: worker[n] agt_cpu[C] agt_rss[M] cpu[c] rss[m] free[f] sent[w] queued[d] lag[l]".toList⟩,
   ⟨line + 3, 0, "Total ".toList ++ dec workers ++ " worker(s)".toList⟩]

/-- The least widths of the columns of a table. -/
def Widths (t : Table) (w : Nat → Nat) : Prop := ∀ j, Width t j (w j)

/-- All that is to be written: the upper table, three lines, the lower table. -/
def Screen (tenths : Nat → Nat → Text) (st : Status) (c : Column) (above rest : List Write) : Prop :=
  ∃ t1 t3 w1 w3, Upper tenths st t1 ∧ Lower tenths st c t3 ∧ Widths t1 w1 ∧ Widths t3 w3 ∧
    above = drawn 0 1 w1 t1 ∧ rest = between t1.length (Start w1 1 11) st.workers.length ++ drawn (t1.length + 4) 1 w3 t3

end Verif.Spec.Top
