import Verif.Spec.Bits

/-!
# Specification of domain names (RFC 1034 3.1, RFC 1035 2.3.1, 3.1, 4.1.4)
-/

namespace Ariadne.Spec

/-- ASCII letter or digit. -/
def LetDig (c : Char) : Prop :=
  ('a' ≤ c ∧ c ≤ 'z') ∨ ('A' ≤ c ∧ c ≤ 'Z') ∨ ('0' ≤ c ∧ c ≤ '9')

/-- Letters, digits and inner hyphens. -/
def ValidLabel (l : List Char) : Prop :=
  (∀ c ∈ l, LetDig c ∨ c = '-') ∧ ∃ a z, l.head? = some a ∧ l.getLast? = some z ∧ LetDig a ∧ LetDig z

/-- Presentation form of a label list: every label followed by a dot; the root is a single dot. -/
def render (labels : List (List Char)) : List Char :=
  if labels = [] then ['.'] else labels.flatMap fun l => l ++ ['.']

/-- `s` is the presentation form of the absolute domain name with these labels. -/
def NameOf (s : List Char) (labels : List (List Char)) : Prop :=
  (∀ l ∈ labels, ValidLabel l) ∧ s = render labels

/-- Well-formed absolute domain name: valid labels, at most 255 characters. -/
def ValidName (s : List Char) : Prop := s.length ≤ 255 ∧ ∃ labels, NameOf s labels

/-- RFC 1035 3.1: each label as a length octet and that many octets, then a zero octet. (Valid labels are ASCII: one
octet per character.) -/
def rfcEncode (labels : List (List Char)) : List UInt8 :=
  (labels.flatMap fun l => UInt8.ofNat l.length :: l.map fun c => UInt8.ofNat c.toNat) ++ [0]

/-- The `n` bytes from bit `r` on are `l`. -/
def BytesAt (bytes : List UInt8) (r : Nat) (l : List UInt8) : Prop :=
  ∀ i (h : i < l.length), FieldAt bytes (r + 8 * i) 8 (l[i]).toNat

/-- RFC 1035 4.1.4, relational: the (possibly compressed) name starting at bit `r` of the message has these label
octets, the reader goes on at bit `next`, and `k` pointers were followed. `addr` gives the bit address a 14-bit
pointer offset stands for, if any: see `rfcAddr`. -/
inductive WireName (addr : Nat → Option Nat) (msg : List UInt8) : Nat → List (List UInt8) → Nat → Nat → Prop
  | root {r : Nat} : r + 8 ≤ 8 * msg.length → FieldAt msg r 8 0 → WireName addr msg r [] (r + 8) 0
  | label {r n : Nat} {l : List UInt8} {ls : List (List UInt8)} {next k : Nat} :
      r + 8 ≤ 8 * msg.length → FieldAt msg r 8 n → 1 ≤ n → n ≤ 63 → l.length = n →
      r + 8 + 8 * n ≤ 8 * msg.length → BytesAt msg (r + 8) l →
      WireName addr msg (r + 8 + 8 * n) ls next k → WireName addr msg r (l :: ls) next k
  | pointer {r off a : Nat} {ls : List (List UInt8)} {next k : Nat} :
      r + 16 ≤ 8 * msg.length → off < 0x4000 → FieldAt msg r 16 (0xC000 + off) →
      addr off = some a → a ≤ 8 * msg.length →
      WireName addr msg a ls next k → WireName addr msg r ls (r + 16) (k + 1)

/-- Reading the name that starts at bit `r` comes past bit `r'` (at the start of a label or pointer). -/
inductive Visits (addr : Nat → Option Nat) (msg : List UInt8) : Nat → Nat → Prop
  | refl {r : Nat} : Visits addr msg r r
  | label {r n r' : Nat} :
      r + 8 ≤ 8 * msg.length → FieldAt msg r 8 n → 1 ≤ n → n ≤ 63 → r + 8 + 8 * n ≤ 8 * msg.length →
      Visits addr msg (r + 8 + 8 * n) r' → Visits addr msg r r'
  | pointer {r off a r' : Nat} :
      r + 16 ≤ 8 * msg.length → off < 0x4000 → FieldAt msg r 16 (0xC000 + off) →
      addr off = some a → a ≤ 8 * msg.length → Visits addr msg a r' → Visits addr msg r r'

/-- At bit `r` there is a pointer that leads nowhere in the message. -/
def BadPointer (addr : Nat → Option Nat) (msg : List UInt8) (r : Nat) : Prop :=
  ∃ off, r + 16 ≤ 8 * msg.length ∧ off < 0x4000 ∧ FieldAt msg r 16 (0xC000 + off) ∧
    ∀ a, addr off = some a → 8 * msg.length < a

/-- RFC 1035 4.1.4: a pointer holds an offset in octets from the start of the message. -/
def rfcAddr (off : Nat) : Option Nat := some (8 * off)

/-- The same for offsets below 8192 only. -/
def lowAddr (off : Nat) : Option Nat := if off < 8192 then some (8 * off) else none

/-- Dotted octets of a label list (the root is a single dot). -/
def dotted (labels : List (List UInt8)) : List UInt8 :=
  if labels = [] then [46] else labels.flatMap fun l => l ++ [46]

end Ariadne.Spec
