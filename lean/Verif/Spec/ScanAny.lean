import Verif.Spec.Lines
import Verif.Spec.AddrText
import Verif.Spec.RuleAny
import Verif.Spec.Range
import Verif.Model.Inf
/-!
# What a `.scan` text says
-/
namespace Uip.Spec.ScanAny
open Uip Uip.Spec Uip.Spec.AddrText

/-- The text stands for the network: an address, a slash, and a decimal prefix length that fits it; the network is the one of this
length around the address. -/
def NetworkText (s : Str) (n : IPNet) : Prop :=
  ∃ a m k, s = a ++ 0x2F :: m ∧ Numeral 10 m k ∧ WFNet n ∧ pfx n = k ∧
    ((n.ip.length = 4 ∧ ∃ p, Quad a p ∧ Covers n (addrNum p)) ∨ (n.ip.length = 16 ∧ ∃ ws, Eight a ws ∧ Covers n (number ws)))

/-- `parts` between bytes `c`. -/
def Between (c : UInt8) (s : Str) (parts : List Str) : Prop := parts ≠ [] ∧ (∀ p ∈ parts, c ∉ p) ∧ s = joinByte c parts

/-- A line of a network and `count` values: they are separated by a tab, the values by commas. -/
def RowReads (count : Nat) (l : Str) (n : IPNet) (vals : List Str) : Prop :=
  vals.length = count ∧ ∃ a b, Between 0x09 l [a, b] ∧ NetworkText a n ∧ Between 0x2C b vals

/-- The network contains the last address of all that are written like it. -/
def Last (n : IPNet) : Prop := if n.ip.length = 4 then netEnd n = 0x10000 * 2 ^ 32 else netEnd n = 2 ^ 128

/-- The lines of a text say: `version` in the second, `fields` in the third, and `rows` after it.  If there is no third line, there
are no fields and no rows. -/
inductive Head (dec : Str → Option (Option VersionInfo)) : List Str → VersionInfo → List Str → List Str → Prop
  | two {t p j : Str} {v} : p.length = 5 → dec j = some (some v) → Head dec [t, p ++ j] v [] []
  | more {t p j q f : Str} {v fields rows} : p.length = 5 → dec j = some (some v) → q.length = 5 → Between 0x2C f fields →
      Head dec (t :: (p ++ j) :: (q ++ f) :: rows) v fields rows

/-- A text whose first lines crash the reader: there are fewer than two; the second has fewer than five bytes before its JSON
text, or this is `null`; the third has fewer than five bytes. -/
inductive Crashes (dec : Str → Option (Option VersionInfo)) : List Str → Prop
  | few {ls : List Str} : ls.length < 2 → Crashes dec ls
  | second {t w rest} : w.length < 5 → Crashes dec (t :: w :: rest)
  | null {t p j rest} : p.length = 5 → dec j = some none → Crashes dec (t :: (p ++ j) :: rest)
  | third {t p j w rest} {v} : p.length = 5 → dec j = some (some v) → w.length < 5 → Crashes dec (t :: (p ++ j) :: w :: rest)

/-- The version in the second line is not the JSON text of one. -/
inductive BadVersion (dec : Str → Option (Option VersionInfo)) : List Str → Prop
  | mk {t p j : Str} {rest} : p.length = 5 → dec j = none → BadVersion dec (t :: (p ++ j) :: rest)

/-- The value of the last column of this name. -/
def Column (fields vals : List Str) (f v : Str) : Prop :=
  ∃ i : Nat, fields[i]? = some f ∧ vals[i]? = some v ∧ ∀ j, i < j → fields[j]? ≠ some f

/-- The value that a line has for a field of a rule: that of the column of this name; without one, that of a column without a name;
without one, none. -/
inductive ValueFor (fields vals : List Str) (f v : Str) : Prop
  | column (h : Column fields vals f v)
  | nameless (no : f ∉ fields) (h : Column fields vals [] v)
  | none (no : f ∉ fields) (no' : [] ∉ fields) (h : v = [])

/-- The fields of the data and the values of a line that has `vals`, under a rule; an empty rule keeps the fields and no values. -/
def Ruled (rule : Str) (fields vals efields out : List Str) : Prop :=
  (rule = [] ∧ efields = fields ∧ out = []) ∨
  (rule ≠ [] ∧ ∃ g parts base, Between 0x7C rule (g :: parts) ∧ Between 0x2C g efields ∧ base.length = efields.length ∧
    (∀ (i : Nat) f v, efields[i]? = some f → base[i]? = some v → ValueFor fields vals f v) ∧ PartsDo efields parts base out)

/-- The fields of the data under a rule. -/
def RuleFields (rule : Str) (fields efields : List Str) : Prop :=
  (rule = [] ∧ efields = fields) ∨ (rule ≠ [] ∧ ∃ g parts, Between 0x7C rule (g :: parts) ∧ Between 0x2C g efields)

/-- Lines that read, and none of them has the last address. -/
def Quiet (count : Nat) (ls : List Str) : Prop := ∀ l ∈ ls, ∃ n vals, RowReads count l n vals ∧ ¬ Last n

/-- The lines that count: all if none has the last address, otherwise those up to the first that has.  All of them read. -/
def Counting (count : Nat) (ls body : List Str) : Prop :=
  (body = ls ∧ Quiet count ls) ∨
    ∃ pre l post, ls = pre ++ l :: post ∧ body = pre ++ [l] ∧ Quiet count pre ∧ ∃ n vals, RowReads count l n vals ∧ Last n

/-- Some line does not read, those before it read, and none of them has the last address. -/
def Broken (count : Nat) (ls : List Str) : Prop :=
  ∃ pre l post, ls = pre ++ l :: post ∧ Quiet count pre ∧ ¬ ∃ n vals, RowReads count l n vals

/-- The rows of the lines that count, in order. -/
inductive Rows (rule : Str) (fields efields : List Str) : List Str → List IpRaw → Prop
  | nil : Rows rule fields efields [] []
  | cons {l n vals out ls ips} : RowReads fields.length l n vals → Ruled rule fields vals efields out →
      Rows rule fields efields ls ips → Rows rule fields efields (l :: ls) (⟨n, out⟩ :: ips)

end Uip.Spec.ScanAny
