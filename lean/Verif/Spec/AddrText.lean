import Verif.Spec.Addr
import Verif.Model.GoStr
/-!
# Which texts are addresses and networks

Written from RFC 4291 (2.2) and RFC 5952 (4), not from the code.
-/
namespace Uip.Spec.AddrText
open Uip Uip.Spec

/-- The value of a digit; 16 for any other byte. -/
def digitOf (c : UInt8) : Nat :=
  if 0x30 ≤ c ∧ c ≤ 0x39 then c.toNat - 0x30
  else if 0x61 ≤ c ∧ c ≤ 0x66 then c.toNat - 0x57
  else if 0x41 ≤ c ∧ c ≤ 0x46 then c.toNat - 0x37
  else 16

/-- `t` consists of digits, at least one, and stands for `n` to base `b`. -/
structure Numeral (b : Nat) (t : Str) (n : Nat) : Prop where
  some : t ≠ []
  digit : ∀ c ∈ t, digitOf c < b
  value : t.foldl (fun n c => n * b + digitOf c) 0 = n

/-- Two lists of one length, related position by position. -/
inductive Each {α β : Type} (R : α → β → Prop) : List α → List β → Prop
  | nil : Each R [] []
  | cons {a b as bs} : R a b → Each R as bs → Each R (a :: as) (b :: bs)

/-- A number of a dotted quad: decimal, below 256, no superfluous zeros. -/
def Octet (t : Str) (x : UInt8) : Prop := Numeral 10 t x.toNat ∧ (t.head? = some 0x30 → t = [0x30])

/-- `a.b.c.d` -/
def Quad (s : Str) (p : Bytes) : Prop := p.length = 4 ∧ ∃ ts, s = joinByte 0x2E ts ∧ Each Octet ts p

/-- A 16-bit group of hexadecimal digits, any number of leading zeros. -/
def Group (t : Str) (w : Nat) : Prop := Numeral 16 t w ∧ w < 65536

/-- One or more groups with colons between them. -/
inductive Groups : Str → List Nat → Prop
  | one {t w} : Group t w → Groups t [w]
  | cons {t w s ws} : Group t w → Groups s ws → Groups (t ++ 0x3A :: s) (w :: ws)

/-- Groups of which the last two may be written as a dotted quad. -/
inductive Groups4 : Str → List Nat → Prop
  | one {t w} : Group t w → Groups4 t [w]
  | quad {t} {a b c d : UInt8} : Quad t [a, b, c, d] → Groups4 t [a.toNat * 256 + b.toNat, c.toNat * 256 + d.toNat]
  | cons {t w s ws} : Group t w → Groups4 s ws → Groups4 (t ++ 0x3A :: s) (w :: ws)

/-- The eight groups of an IPv6 address; `::` stands for one or more groups of zeros. -/
def Eight (s : Str) (ws : List Nat) : Prop :=
  ws.length = 8 ∧ (Groups4 s ws ∨
    ∃ l r lw rw n, s = l ++ 0x3A :: 0x3A :: r ∧ (l = [] ∧ lw = [] ∨ Groups l lw) ∧ (r = [] ∧ rw = [] ∨ Groups4 r rw) ∧
      1 ≤ n ∧ ws = lw ++ List.replicate n 0 ++ rw)

/-- The number of eight groups. -/
def number (ws : List Nat) : Nat := ws.foldl (fun n w => n * 65536 + w) 0

/-- The text stands for the address: as dotted quad, or as IPv6 address. -/
def Spells (s : Str) (ip : IP) : Prop := (∃ p, Quad s p ∧ addrNum ip = addrNum p) ∨ ∃ ws, Eight s ws ∧ addrNum ip = number ws

/-- The shortest numeral, in small letters. -/
def Short (b : Nat) (t : Str) (n : Nat) : Prop :=
  Numeral b t n ∧ (t.head? = some 0x30 → t = [0x30]) ∧ ∀ c ∈ t, ¬ (0x41 ≤ c ∧ c ≤ 0x46)

/-- Short groups with colons between them, possibly none. -/
def ShortGroups (t : Str) (ws : List Nat) : Prop := ∃ ts, t = joinByte 0x3A ts ∧ Each (Short 16) ts ws

/-- There are `n` groups of zeros from group `i`. -/
def Zeros (ws : List Nat) (i n : Nat) : Prop := i + n ≤ ws.length ∧ ∀ k, i ≤ k → k < i + n → ws[k]? = some 0

/-- RFC 5952: `::` for the first of the longest runs of zeros if it has at least two groups. -/
def Rfc5952 (t : Str) (ws : List Nat) : Prop :=
  ((∀ i, ¬ Zeros ws i 2) ∧ ShortGroups t ws) ∨
    ∃ i n l r, 2 ≤ n ∧ Zeros ws i n ∧ (∀ j m, Zeros ws j m → m ≤ n) ∧ (∀ j, Zeros ws j n → i ≤ j) ∧
      ShortGroups l (ws.take i) ∧ ShortGroups r (ws.drop (i + n)) ∧ t = l ++ 0x3A :: 0x3A :: r

end Uip.Spec.AddrText
