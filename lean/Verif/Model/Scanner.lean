import Verif.Model.GoScan
/-!
# `bufio.Scanner` (Go std), over a reader that moves any number of bytes at a time

`/repo/db/format/plain/dumper.go:40-47`, `/repo/db/format/memip/dumper.go:51-75` and `/repo/db/field/data/load.go:14-19`
read their texts with a `bufio.Scanner`.  `Model/GoScan.lean` says which lines it delivers; here it is modelled as it
works: a buffer that is shifted and grows, filled by reads.
-/
namespace Uip.Scanner
open Uip

/-- `bufio.Scanner` (Go std): `data` is `buf[start:end]`, `len` is `len(buf)`, `rest` what the reader has not delivered,
`eof` says that a read returned `io.EOF`. -/
structure State where
  data : Str
  start : Nat
  len : Nat
  rest : Str
  eof : Bool
deriving DecidableEq

/-- `bufio.NewScanner` (Go std): no buffer yet. -/
def new (s : Str) : State := ⟨[], 0, 0, s, false⟩

/-- `bufio.startBufSize` (Go std). -/
def startBufSize : Nat := 4096

/-- `bufio.ScanLines` (Go std): the bytes passed over and the token, if there is one. -/
def splitLine (data : Str) (eof : Bool) : Option (Nat × Str) :=
  match cutByte 0x0A data with
  | some (p, _) => some (p.length + 1, dropCR p)
  | none => if eof = true ∧ data ≠ [] then some (data.length, dropCR data) else none

/-- `Scanner.Scan` (Go std), the shift of the data to the start of the buffer. -/
def shift (st : State) : State :=
  if 0 < st.start ∧ (st.start + st.data.length = st.len ∨ st.len / 2 < st.start) then { st with start := 0 } else st

/-- `Scanner.Scan` (Go std), the growth of a full buffer; `none`: the buffer may not grow any more. -/
def grow (st : State) : Option State :=
  if st.start + st.data.length = st.len then
    if maxToken ≤ st.len then none
    else some { st with start := 0, len := min (if st.len * 2 = 0 then startBufSize else st.len * 2) maxToken }
  else some st

/-- A call of `Read` with the free part of the buffer: it moves `n` bytes if there are so many and so much space, and at
least one byte if any is left. -/
def read (n : Nat) (st : State) : State :=
  if st.rest = [] then { st with eof := true }
  else
    let n := min (max 1 n) (st.len - (st.start + st.data.length))
    { st with data := st.data ++ st.rest.take n, rest := st.rest.drop n }

/-- One round of the loop of `Scanner.Scan` (Go std). -/
inductive Round
  | token (t : Str) (st : State)
  | more (st : State)
  | stop
  | tooLong

/-- One round of the loop of `Scanner.Scan` (Go std), in which a read moves `n` bytes.  Reads of no bytes without an
error are left out. -/
def round (n : Nat) (st : State) : Round :=
  match (if st.data ≠ [] ∨ st.eof = true then splitLine st.data st.eof else none) with
  | some (k, t) => .token t { st with data := st.data.drop k, start := st.start + k }
  | none =>
    if st.eof = true then .stop
    else match grow (shift st) with
      | none => .tooLong
      | some st => .more (read n st)

/-- `for scanner.Scan() { … scanner.Text() … }` (Go std), at most `fuel` rounds (`none`: not done), the `i`-th of which
reads `sizes i` bytes if it reads: the lines, and whether it stopped with `bufio.ErrTooLong`. -/
def run (sizes : Nat → Nat) : Nat → Nat → State → Option (List Str × Bool)
  | 0, _, _ => none
  | fuel + 1, i, st =>
    match round (sizes i) st with
    | .token t st => (run sizes fuel (i + 1) st).map fun r => (t :: r.1, r.2)
    | .more st => run sizes fuel (i + 1) st
    | .stop => some ([], false)
    | .tooLong => some ([], true)

end Uip.Scanner
