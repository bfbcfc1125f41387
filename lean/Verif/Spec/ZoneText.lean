import Verif.Spec.Loader
import Verif.Spec.Tokens
import Verif.Spec.Zone
import Mathlib.Data.List.Forall2

/-!
# What the text of a master file means (RFC 1035 5.1)

The grammar has escapes (`\X`) in quoted strings only, none of the form `\DDD`, and no words that start with a dollar sign except for the directives at the beginning
of a line. `strict` leaves out what the loader is known not to accept (`C41_violated`).
-/

namespace Ariadne.Spec

/-! ## Words -/

/-- A word of an entry, or a quoted string. -/
inductive Word
  | plain (s : Str)
  | quoted (s : Str)
  deriving DecidableEq, Repr

/-- Characters that cannot be in a word: white space, parentheses, semicolons; (no escapes here: a word has no backslash either). -/
def Separates (c : Char) : Prop := isWhitespace c = true ∨ c = '(' ∨ c = ')' ∨ c = ';'

/-- A word, as it is written. -/
def Solid (w : Str) : Prop := w ≠ [] ∧ (∀ c ∈ w, ¬ Separates c ∧ c ≠ '\\') ∧ w.head? ≠ some '"'

/-- `Quotes s text`: the text, between quotes, stands for the string `s`. A backslash takes away the meaning of the character
after it, which is not a digit. -/
inductive Quotes : Str → Str → Prop
  | nil : Quotes [] []
  | char {c : Char} {s text : Str} : c ≠ '"' → c ≠ '\\' → Quotes s text → Quotes (c :: s) (c :: text)
  | escape {c : Char} {s text : Str} : ¬ ('0' ≤ c ∧ c ≤ '9') → Quotes s text → Quotes (c :: s) ('\\' :: c :: text)

/-- What can follow a word in its line: nothing, a blank, a parenthesis, a comment. -/
def Boundary (l : Str) : Prop := ∀ c, l.head? = some c → c = ' ' ∨ c = '\t' ∨ c = '(' ∨ c = ')' ∨ c = ';'

/-- `Spells o ws l ls left`: the text `l`, the rest of a line, and the beginning of the lines `ls` spell the words `ws`, up to
the end of an entry; the lines `left` follow the entry. `o`: are we within parentheses? There, an entry goes on beyond the
end of a line. -/
inductive Spells : Bool → List Word → Str → List Str → List Str → Prop
  | done {ls : List Str} : Spells false [] [] ls ls
  | blank {o : Bool} {ws : List Word} {c : Char} {l : Str} {ls left : List Str} : c = ' ' ∨ c = '\t' →
      Spells o ws l ls left → Spells o ws (c :: l) ls left
  | word {o : Bool} {ws : List Word} {w l : Str} {ls left : List Str} : Solid w → w.head? ≠ some '$' → Boundary l →
      Spells o ws l ls left → Spells o (.plain w :: ws) (w ++ l) ls left
  | quoted {o : Bool} {ws : List Word} {s text l : Str} {ls left : List Str} : Quotes s text → Boundary l →
      Spells o ws l ls left → Spells o (.quoted s :: ws) ('"' :: text ++ '"' :: l) ls left
  | opening {ws : List Word} {l : Str} {ls left : List Str} : Spells true ws l ls left → Spells false ws ('(' :: l) ls left
  | closing {ws : List Word} {l : Str} {ls left : List Str} : Spells false ws l ls left → Spells true ws (')' :: l) ls left
  | comment {o : Bool} {ws : List Word} {text : Str} {ls left : List Str} : Spells o ws [] ls left →
      Spells o ws (';' :: text) ls left
  | newline {ws : List Word} {l : Str} {ls left : List Str} : Spells true ws l ls left → Spells true ws [] (l :: ls) left

/-- `Entry head ws ls left`: the lines `ls` start with an entry that has the word `head` at the beginning of its first line
(nothing: it starts with a blank), and then the words `ws`; the lines `left` follow. -/
inductive Entry : Str → List Word → List Str → List Str → Prop
  | blank {ws : List Word} {c : Char} {l : Str} {ls left : List Str} : c = ' ' ∨ c = '\t' → ws ≠ [] →
      Spells false ws l ls left → Entry [] ws ((c :: l) :: ls) left
  | word {ws : List Word} {h l : Str} {ls left : List Str} : Solid h → Boundary l →
      Spells false ws l ls left → Entry h ws ((h ++ l) :: ls) left

/-! ## Values -/

/-- The word is a decimal numeral with the value `n`. -/
def Numeral (w : Str) (n : Nat) : Prop :=
  w ≠ [] ∧ (∀ c ∈ w, '0' ≤ c ∧ c ≤ '9') ∧ w.foldl (fun a c => 10 * a + (c.toNat - '0'.toNat)) 0 = n

/-- The loader takes the word for a number: a numeral below 2^32, with or without a plus sign. -/
def LooksNumeric (w : Str) : Prop := ∃ d n, (w = d ∨ w = '+' :: d) ∧ Numeral d n ∧ n < 2 ^ 32

/-- One number of an address: up to 255, no leading zeros. -/
def OctetText (w : Str) (b : UInt8) : Prop := Numeral w b.toNat ∧ (w.head? = some '0' → w.length = 1)

/-- An address in dotted decimal. -/
def AddressText (w : Str) (ip : Ip4) : Prop :=
  ∃ a b c d, w = a ++ '.' :: b ++ '.' :: c ++ '.' :: d ∧ OctetText a ip.a ∧ OctetText b ip.b ∧ OctetText c ip.c ∧
    OctetText d ip.d

/-- The name the word stands for: an absolute name, or a relative one to which the origin is added. -/
def NameText (strict : Bool) (origin : Name) (w : Str) (n : Name) : Prop :=
  (strict = true → ¬ LooksNumeric w) ∧ n.s.length ≤ 255 ∧ ∃ L, NameOf n.s L ∧
    (NameOf w L ∨ ∃ K O, K ≠ [] ∧ NameOf (w ++ ['.']) K ∧ NameOf origin.s O ∧ L = K ++ O)

/-- A name in the data of a record; an at sign is the origin. (`strict`: none.) -/
def TargetText (strict : Bool) (origin : Name) (w : Str) (n : Name) : Prop :=
  (strict = false ∧ w = ['@'] ∧ n = origin) ∨ NameText strict origin w n

/-- The owner: nothing or an at sign is the origin. -/
def OwnerText (strict : Bool) (origin : Name) (w : Str) (n : Name) : Prop :=
  ((w = [] ∨ w = ['@']) ∧ n = origin) ∨ NameText strict origin w n

/-- A character string. (`strict`: it is quoted, or cannot be mistaken.) -/
def StringText (strict : Bool) (w : Word) (s : Str) : Prop :=
  (∀ c ∈ s, c.toNat < 128) ∧
  (w = .quoted s ∨ (w = .plain s ∧ (strict = true → ¬ LooksNumeric s ∧ s ≠ ['@'])))

/-! ## Records -/

/-- TTL and class: both are optional, and they come in either order. The only class is IN, the TTL defaults to `last`. -/
inductive TtlClass (last : UInt32) : List Word → UInt32 → Prop
  | neither : TtlClass last [] last
  | ttl {w : Str} {n : UInt32} : Numeral w n.toNat → TtlClass last [.plain w] n
  | cls : TtlClass last [.plain "IN".toList] last
  | ttlClass {w : Str} {n : UInt32} : Numeral w n.toNat → TtlClass last [.plain w, .plain "IN".toList] n
  | classTtl {w : Str} {n : UInt32} : Numeral w n.toNat → TtlClass last [.plain "IN".toList, .plain w] n

/-- Type and data of a record, other than SOA. (The services of a WKS record, which the loader skips, are not in this grammar.) -/
inductive DataText (strict : Bool) (origin : Name) : List Word → RData → Prop
  | a {w : Str} {ip : Ip4} : AddressText w ip → DataText strict origin [.plain "A".toList, .plain w] (.A ip)
  | ns {w : Str} {n : Name} : TargetText strict origin w n → DataText strict origin [.plain "NS".toList, .plain w] (.NS n)
  | cname {w : Str} {n : Name} : (w = ['@'] ∧ n = origin) ∨ NameText strict origin w n →
      DataText strict origin [.plain "CNAME".toList, .plain w] (.CNAME n)
  | ptr {w : Str} {n : Name} : TargetText strict origin w n → (strict = true → w.getLast? = some '.') →
      DataText strict origin [.plain "PTR".toList, .plain w] (.PTR n)
  | mx {w w' : Str} {p : UInt16} {n : Name} : Numeral w p.toNat → TargetText strict origin w' n →
      DataText strict origin [.plain "MX".toList, .plain w, .plain w'] (.MX p n)
  | hinfo {w w' : Word} {cpu os : Str} : StringText strict w cpu → StringText strict w' os →
      DataText strict origin [.plain "HINFO".toList, w, w'] (.HINFO cpu os)
  | txt {ws : List Word} {ss : List Str} : ws ≠ [] → List.Forall₂ (StringText strict) ws ss →
      DataText strict origin (.plain "TXT".toList :: ws) (.TXT ss)
  | wks {w : Str} {ip : Ip4} {protocol : Str} {n : UInt8} : AddressText w ip →
      (protocol.map Char.toUpper = "TCP".toList ∧ n = 6) ∨ (protocol.map Char.toUpper = "UDP".toList ∧ n = 17) →
      DataText strict origin [.plain "WKS".toList, .plain w, .plain protocol] (.WKS ip n [])

/-- The record an entry stands for. -/
def RecordText (strict : Bool) (origin : Name) (last : UInt32) (head : Str) (ws : List Word) (r : Record) : Prop :=
  ∃ ts ds, ws = ts ++ ds ∧ OwnerText strict origin head r.node ∧ TtlClass last ts r.ttl ∧ r.cls = .IN ∧
    DataText strict origin ds r.data ∧ r.dataLen = 0

/-- The SOA record an entry stands for. (`strict`: it has a class.) -/
def SoaText (strict : Bool) (zone : Name) (start : UInt32) (head : Str) (ws : List Word) (r : Record) (minimum : UInt32) :
    Prop :=
  ∃ ts m e n1 n2 n3 n4 n5 mname rname serial refresh retry expire,
    ws = ts ++ [.plain "SOA".toList, .plain m, .plain e, .plain n1, .plain n2, .plain n3, .plain n4, .plain n5] ∧
    OwnerText strict zone head r.node ∧ r.node = zone ∧ TtlClass start ts r.ttl ∧ r.cls = .IN ∧ r.dataLen = 0 ∧
    (strict = true → .plain "IN".toList ∈ ts) ∧
    r.data = .SOA mname rname serial refresh retry expire minimum ∧
    TargetText strict zone m mname ∧ TargetText strict zone e rname ∧
    Numeral n1 serial.toNat ∧ Numeral n2 refresh.toNat ∧ Numeral n3 retry.toNat ∧ Numeral n4 expire.toNat ∧
    Numeral n5 minimum.toNat

/-! ## Files -/

/-- The zone a file is for: its name, the names of the sub zones, the least TTL. -/
structure ZoneFrame where
  zone : Name
  subZones : List Name
  minimum : UInt32

/-- The name is in the zone, and in no sub zone. -/
def ZoneFrame.Owns (f : ZoneFrame) (n : Name) : Prop := Within n f.zone ∧ ∀ s ∈ f.subZones, ¬ Within n s

/-- `FileMeans strict f inc origin last ls rs`: with this origin and this last stated TTL, the lines `ls` stand for the records
`rs`, where `inc path origin last rs'` says that the included file `path` stands for the records `rs'`. -/
inductive FileMeans (strict : Bool) (f : ZoneFrame) (inc : Str → Name → UInt32 → List Record → Prop) :
    Name → UInt32 → List Str → List Record → Prop
  | nil {origin : Name} {last : UInt32} : FileMeans strict f inc origin last [] []
  | skip {origin : Name} {last : UInt32} {l : Str} {ls : List Str} {rs : List Record} : NoCode l →
      FileMeans strict f inc origin last ls rs → FileMeans strict f inc origin last (l :: ls) rs
  | record {origin : Name} {last : UInt32} {head : Str} {ws : List Word} {ls left : List Str} {r : Record} {rs : List Record} :
      Entry head ws ls left → RecordText strict origin last head ws r → f.Owns r.node → f.minimum ≤ r.ttl →
      FileMeans strict f inc origin r.ttl left rs → FileMeans strict f inc origin last ls (r :: rs)
  | origin {origin origin' : Name} {last : UInt32} {ls left : List Str} {rs : List Record} :
      Entry "$ORIGIN".toList [.plain origin'.s] ls left → ValidName origin'.s → f.Owns origin' →
      FileMeans strict f inc origin' last left rs → FileMeans strict f inc origin last ls rs
  | include {origin origin' : Name} {last : UInt32} {path : Str} {ws : List Word} {ls left : List Str} {rs' rs : List Record} :
      Entry "$INCLUDE".toList (.plain path :: ws) ls left → (strict = true → ¬ LooksNumeric path ∧ path ≠ ['@']) →
      (ws = [] ∧ origin' = origin) ∨ (∃ w, ws = [.plain w] ∧ NameText strict origin w origin' ∧ f.Owns origin') →
      inc path origin' last rs' → FileMeans strict f inc origin last left rs →
      FileMeans strict f inc origin last ls (rs' ++ rs)

/-- `Reaches strict f inc origin last ls rs origin' last' ls'`: the first entries of the lines `ls` stand for the records `rs`; the
lines `ls'` follow, with the origin `origin'` and the last stated TTL `last'`. -/
inductive Reaches (strict : Bool) (f : ZoneFrame) (inc : Str → Name → UInt32 → List Record → Prop) (origin : Name)
    (last : UInt32) (ls : List Str) : List Record → Name → UInt32 → List Str → Prop
  | refl : Reaches strict f inc origin last ls [] origin last ls
  | skip {o : Name} {ttl : UInt32} {l : Str} {ls' : List Str} {rs : List Record} :
      Reaches strict f inc origin last ls rs o ttl (l :: ls') → NoCode l → Reaches strict f inc origin last ls rs o ttl ls'
  | record {o : Name} {ttl : UInt32} {head : Str} {ws : List Word} {ls' left : List Str} {r : Record} {rs : List Record} :
      Reaches strict f inc origin last ls rs o ttl ls' →
      Entry head ws ls' left → RecordText strict o ttl head ws r → f.Owns r.node → f.minimum ≤ r.ttl →
      Reaches strict f inc origin last ls (rs ++ [r]) o r.ttl left
  | origin {o o' : Name} {ttl : UInt32} {ls' left : List Str} {rs : List Record} :
      Reaches strict f inc origin last ls rs o ttl ls' →
      Entry "$ORIGIN".toList [.plain o'.s] ls' left → ValidName o'.s → f.Owns o' →
      Reaches strict f inc origin last ls rs o' ttl left
  | include {o o' : Name} {ttl : UInt32} {path : Str} {ws : List Word} {ls' left : List Str} {rs' rs : List Record} :
      Reaches strict f inc origin last ls rs o ttl ls' →
      Entry "$INCLUDE".toList (.plain path :: ws) ls' left → (strict = true → ¬ LooksNumeric path ∧ path ≠ ['@']) →
      (ws = [] ∧ o' = o) ∨ (∃ w, ws = [.plain w] ∧ NameText strict o w o' ∧ f.Owns o') →
      inc path o' ttl rs' → Reaches strict f inc origin last ls (rs ++ rs') o ttl left

/-- The records of a sub zone file: name servers and their addresses, with relative names completed with the zone. -/
inductive SubMeans (strict : Bool) (zone : Name) (minimum : UInt32) : UInt32 → List Str → List Record → Prop
  | nil {last : UInt32} : SubMeans strict zone minimum last [] []
  | skip {last : UInt32} {l : Str} {ls : List Str} {rs : List Record} : NoCode l →
      SubMeans strict zone minimum last ls rs → SubMeans strict zone minimum last (l :: ls) rs
  | record {last : UInt32} {head : Str} {ws : List Word} {ls left : List Str} {r : Record} {rs : List Record} :
      Entry head ws ls left → RecordText strict zone last head ws r → r.recordType = .A ∨ r.recordType = .NS →
      Within r.node zone → minimum ≤ r.ttl →
      SubMeans strict zone minimum r.ttl left rs → SubMeans strict zone minimum last ls (r :: rs)

/-- What included files stand for, if includes are nested at most that deep. -/
def Included (strict : Bool) (fs : ZoneParser.Files) (f : ZoneFrame) : Nat → Str → Name → UInt32 → List Record → Prop
  | 0 => fun _ _ _ _ => False
  | depth + 1 => fun path origin last rs =>
    ∃ ls, fs path = some (ls.map some) ∧ FileMeans strict f (Included strict fs f depth) origin last ls rs

/-- The frame of the configured zone, once the least TTL is known. -/
def frameOf (conf : ZoneParser.Params) (minimum : UInt32) : ZoneFrame := ⟨conf.zone, conf.subZones.map (·.zone), minimum⟩

/-- The file of the configured zone starts with an SOA record; then it stands for the records `rs`. `next soa` is the TTL
the entry after the SOA inherits. -/
def ZoneMeans (strict : Bool) (fs : ZoneParser.Files) (conf : ZoneParser.Params) (next : Record → UInt32)
    (inc : ZoneFrame → Str → Name → UInt32 → List Record → Prop) (soa : Record) (rs : List Record) : Prop :=
  ∃ pre ls left head ws minimum, fs conf.filePath = some ((pre ++ ls).map some) ∧ (∀ l ∈ pre, NoCode l) ∧
    Entry head ws ls left ∧ SoaText strict conf.zone conf.startingTtl head ws soa minimum ∧ minimum ≤ soa.ttl ∧
    FileMeans strict (frameOf conf minimum) (inc (frameOf conf minimum)) conf.zone (next soa) left rs

/-- As `ZoneMeans`, up to some place in the file: the frame, the records so far (without the SOA), and the origin, the last
stated TTL and the lines there. -/
def ZoneReaches (strict : Bool) (fs : ZoneParser.Files) (conf : ZoneParser.Params) (next : Record → UInt32)
    (inc : ZoneFrame → Str → Name → UInt32 → List Record → Prop) (soa : Record) (f : ZoneFrame) (rs : List Record)
    (origin : Name) (last : UInt32) (rest : List Str) : Prop :=
  ∃ pre ls left head ws minimum, f = frameOf conf minimum ∧ fs conf.filePath = some ((pre ++ ls).map some) ∧
    (∀ l ∈ pre, NoCode l) ∧ Entry head ws ls left ∧ SoaText strict conf.zone conf.startingTtl head ws soa minimum ∧
    minimum ≤ soa.ttl ∧ Reaches strict f (inc f) conf.zone (next soa) left rs origin last rest

/-- The file of a sub zone stands for these records. -/
def SubZoneMeans (strict : Bool) (fs : ZoneParser.Files) (c : ZoneParser.SubParams) (rs : List Record) : Prop :=
  ∃ ls, fs c.filePath = some (ls.map some) ∧ SubMeans strict c.zone c.minTtl c.startingTtl ls rs

/-- The store returns exactly these records, in this order for each owner and type, whatever is asked for. -/
def Returns (z : Zone) (rs : List Record) : Prop :=
  (∀ p node kind, (z.get p node kind : Out ParsingErr _) =
    .ok (if recordsAt rs node kind = [] then none else some (recordsAt rs node kind))) ∧
  ∀ o kind, (z.getAllOfType o kind).Perm (rs.filter fun r => r.recordType == kind)

end Ariadne.Spec
