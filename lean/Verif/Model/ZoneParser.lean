import Verif.Model.Tokens
import Verif.Model.Zone

/-!
# Zone file parser – models src/nameserver/zones/{parser,parser_auth,parser_sub,utils,errors}.rs

Log output and the texts of errors (with file names and line numbers) are dropped.
-/

namespace Ariadne

/-- errors.rs:10-25 `enum ParseErr`. -/
inductive ParseErr
  | unexpectedToken (t : Token)
  | malformedToken (e : TokenErr)
  | readingErr
  | malformedData
  | ttlTooLow (n : UInt32)
  | unexpectedRecord
  | nameNotInRootNode
  | nameNotInZone
  | malformedZone
  deriving DecidableEq, Repr

namespace ZoneParser

/-- errors.rs:27-34 `From<TokenErr> for ParseErr`, in the `?` operator. -/
def tok {α : Type} (x : Out TokenErr α) : Out ParseErr α :=
  x.mapErr fun e => if e = .readErr then .readingErr else .malformedToken e

/-- errors.rs:36-40 `From<NameErr> for ParseErr`. -/
def nm {α : Type} (x : Out NameErr α) : Out ParseErr α := x.mapErr fun _ => .malformedData

/-- `tokenizer.next().unwrap()`. -/
def unwrapTok (x : Out TokenErr (Token × Tokenizer)) : Out ParseErr Tokenizer :=
  match x with
  | .ok (_, t) => .ok t
  | .err _ => .panic .unwrap
  | .panic k => .panic k
  | .diverge => .diverge

/-- errors.rs:43-50 `ensure_absolute_name`. -/
def ensureAbsoluteName (name : Str) : Out ParseErr Unit :=
  if name.getLast? = some '.' then .ok () else .err .malformedData

/-- errors.rs:53-59 `ensure_name_in_zone`. -/
def ensureNameInZone (name zone : Name) : Out ParseErr Unit :=
  if name.isInZone zone then .ok () else .err .nameNotInZone

/-- errors.rs:63-69 `ensure_name_in_auth_zone`. -/
def ensureNameInAuthZone (name zone : Name) (subZones : List Name) : Out ParseErr Unit :=
  if name.isOnlyInAuthZone zone subZones then .ok () else .err .nameNotInZone

/-- errors.rs:72-79 `ensure_class_is_supported`. -/
def ensureClassIsSupported (c : Class) : Out ParseErr Unit :=
  if c.isSupported then .ok () else .err .malformedData

/-- errors.rs:82-88 `ensure_min_ttl`. -/
def ensureMinTtl (minTtl ttl : UInt32) : Out ParseErr Unit :=
  if ttl ≥ minTtl then .ok () else .err (.ttlTooLow ttl)

/-- utils.rs:44-50 `try_to_ttl`. -/
def tryToTtl : Token → Option UInt32
  | .number n => some n
  | _ => none

/-- utils.rs:52-60 `try_to_class`. -/
def tryToClass : Token → Option Class
  | .string s => Class.fromString s
  | _ => none

/-- utils.rs:8-42 `parse_ttl_class`. -/
def parseTtlClass (t : Tokenizer) : Out ParseErr ((Option UInt32 × Option Class) × Tokenizer) := do
  let (nextToken, t) ← tok t.peekAfterBlanks
  match nextToken with
  | .number n => do
    let t ← unwrapTok t.next
    let (classOrType, t) ← tok t.peekAfterBlanks
    match tryToClass classOrType with
    | some c => do
      let t ← unwrapTok t.next
      .ok ((some n, some c), t)
    | none => .ok ((some n, none), t)
  | .string s =>
    match Class.fromString s with
    | some c => do
      let t ← unwrapTok t.next
      let (ttlOrType, t) ← tok t.peekAfterBlanks
      match tryToTtl ttlOrType with
      | some ttl => do
        let t ← unwrapTok t.next
        .ok ((some ttl, some c), t)
      | none => .ok ((none, some c), t)
    | none => .ok ((none, none), t)
  | other => .err (.unexpectedToken other)

/-- utils.rs:64-76 `adjust_name`. -/
def adjustName (currentOrigin : Name) (name : Str) : Out ParseErr Name :=
  if name = ['@'] then .ok currentOrigin
  else
    let name := if name.getLast? = some '.' then name else name ++ ['.'] ++ currentOrigin.s
    nm (Name.fromString name)

/-- utils.rs:79-90 `parse_char_string`. -/
def parseCharString (token : Token) : Out ParseErr Str :=
  match token with
  | .string s => if isValidCharacterString s false then .ok s else .err .malformedData
  | .qString s => if isValidCharacterString s true then .ok s else .err .malformedData
  | other => .err (.unexpectedToken other)

/-- utils.rs:94-109 `discard_strings_until_newline`, with fuel. -/
def discardStrings : Nat → Tokenizer → Out ParseErr Tokenizer
  | 0, _ => .diverge
  | fuel + 1, t => do
    let (token, t) ← tok t.peekAfterBlanks
    match token with
    | .newLine => .ok t
    | .end => .ok t
    | .string _ => do
      let t ← unwrapTok t.nextAfterBlanks
      discardStrings fuel t
    | other => .err (.unexpectedToken other)

/-- One octet of `Ipv4Addr::from_str` (std): one to three digits, no superfluous leading zero, at most 255. -/
def parseOctet (s : Str) : Option UInt8 :=
  if s.length = 0 ∨ s.length > 3 then none
  else if s.head? = some '0' ∧ s.length > 1 then none
  else match digitsVal s 0 with
    | none => none
    | some v => if v < 256 then some (UInt8.ofNat v) else none

/-- `net::Ipv4Addr::from_str` (std): four octets separated by dots. -/
def parseIpv4 (s : Str) : Option Ip4 :=
  match (splitOn '.' s).map parseOctet with
  | [some a, some b, some c, some d] => some ⟨a, b, c, d⟩
  | _ => none

/-- parser_auth.rs:246 `type RecData`. -/
structure RecData where
  node : Name
  cls : Class
  ttl : UInt32

/-- The record with the given data; `data_len` is 0 in all records made by the parser. -/
def RecData.mk' (d : RecData) (data : RData) : Record :=
  { node := d.node, cls := d.cls, ttl := d.ttl, dataLen := 0, data := data }

/-- The address in parser_auth.rs:249-257 and 349-357. -/
def parseAddress (t : Tokenizer) : Out ParseErr (Ip4 × Tokenizer) := do
  let (ip, t) ← tok t.nextAfterBlanks
  match ip with
  | .string s =>
    match parseIpv4 s with
    | some a => .ok (a, t)
    | none => .err .malformedData
  | other => .err (.unexpectedToken other)

/-- parser_auth.rs:248-266 `parse_a_record`. -/
def parseA (t : Tokenizer) (d : RecData) : Out ParseErr (Record × Tokenizer) := do
  let (address, t) ← parseAddress t
  .ok (d.mk' (.A address), t)

/-- The name in parser_auth.rs:269-275 (NS), 307-313 and 315-321 (SOA), 426-432 (MX). -/
def parseRelName (t : Tokenizer) (origin : Name) : Out ParseErr (Name × Tokenizer) := do
  let (name, t) ← tok t.nextAfterBlanks
  match name with
  | .string s => do
    let n ← adjustName origin s
    .ok (n, t)
  | other => .err (.unexpectedToken other)

/-- parser_auth.rs:268-284 `parse_ns_record`. -/
def parseNs (t : Tokenizer) (origin : Name) (d : RecData) : Out ParseErr (Record × Tokenizer) := do
  let (name, t) ← parseRelName t origin
  .ok (d.mk' (.NS name), t)

/-- parser_auth.rs:286-304 `parse_cname_record`. -/
def parseCname (t : Tokenizer) (origin : Name) (d : RecData) : Out ParseErr (Record × Tokenizer) := do
  let (name, t) ← tok t.nextAfterBlanks
  match name with
  | .at => .ok (d.mk' (.CNAME origin), t)
  | .string s => do
    let n ← adjustName origin s
    .ok (d.mk' (.CNAME n), t)
  | other => .err (.unexpectedToken other)

/-- A number in parser_auth.rs:324-331. -/
def parseNumber (t : Tokenizer) : Out ParseErr (UInt32 × Tokenizer) := do
  let (next, t) ← tok t.nextAfterBlanks
  match next with
  | .number n => .ok (n, t)
  | other => .err (.unexpectedToken other)

/-- parser_auth.rs:306-346 `parse_soa_record`; the last component is the minimum (see 508-514). -/
def parseSoa (t : Tokenizer) (origin : Name) (d : RecData) : Out ParseErr (Record × UInt32 × Tokenizer) := do
  let (nsName, t) ← parseRelName t origin
  let (mailName, t) ← parseRelName t origin
  let (serial, t) ← parseNumber t
  let (refresh, t) ← parseNumber t
  let (retry, t) ← parseNumber t
  let (expire, t) ← parseNumber t
  let (minimum, t) ← parseNumber t
  .ok (d.mk' (.SOA nsName mailName serial refresh retry expire minimum), minimum, t)

/-- parser_auth.rs:363-367: `to_uppercase` of no other character than the ASCII letters gives a letter of TCP or UDP, so
the ASCII mapping decides. -/
def wksProtocol (s : Str) : Option UInt8 :=
  if s.map Char.toUpper = "TCP".toList then some 6
  else if s.map Char.toUpper = "UDP".toList then some 17
  else none

/-- parser_auth.rs:348-383 `parse_wks_record`. -/
def parseWks (fuel : Nat) (t : Tokenizer) (d : RecData) : Out ParseErr (Record × Tokenizer) := do
  let (address, t) ← parseAddress t
  let (protocol, t) ← tok t.nextAfterBlanks
  match protocol with
  | .string pr =>
    match wksProtocol pr with
    | some n => do
      let t ← discardStrings fuel t
      .ok (d.mk' (.WKS address n []), t)
    | none => .err .malformedData
  | other => .err (.unexpectedToken other)

/-- parser_auth.rs:385-401 `parse_ptr_record`. -/
def parsePtr (t : Tokenizer) (d : RecData) : Out ParseErr (Record × Tokenizer) := do
  let (next, t) ← tok t.nextAfterBlanks
  match next with
  | .string s => do
    ensureAbsoluteName s
    let n ← nm (Name.fromString s)
    .ok (d.mk' (.PTR n), t)
  | other => .err (.unexpectedToken other)

/-- parser_auth.rs:403-416 `parse_hinfo_record`. -/
def parseHinfo (t : Tokenizer) (d : RecData) : Out ParseErr (Record × Tokenizer) := do
  let (next, t) ← tok t.nextAfterBlanks
  let cpu ← parseCharString next
  let (next, t) ← tok t.nextAfterBlanks
  let os ← parseCharString next
  .ok (d.mk' (.HINFO cpu os), t)

/-- parser_auth.rs:418-442 `parse_mx_record`. -/
def parseMx (t : Tokenizer) (origin : Name) (d : RecData) : Out ParseErr (Record × Tokenizer) := do
  let (num, t) ← parseNumber t
  if num.toNat < 65536 then do
    let (name, t) ← parseRelName t origin
    .ok (d.mk' (.MX num.toUInt16 name), t)
  else .err .malformedData

/-- The loop parser_auth.rs:446-457, with fuel. -/
def txtLoop : Nat → Tokenizer → List Str → Out ParseErr (List Str × Tokenizer)
  | 0, _, _ => .diverge
  | fuel + 1, t, txts => do
    let (next, t) ← tok t.peekAfterBlanks
    match next with
    | .newLine => .ok (txts, t)
    | .end => .ok (txts, t)
    | other => do
      let t ← unwrapTok t.nextAfterBlanks
      let txt ← parseCharString other
      txtLoop fuel t (txts ++ [txt])

/-- parser_auth.rs:444-466 `parse_txt_record`. -/
def parseTxt (fuel : Nat) (t : Tokenizer) (d : RecData) : Out ParseErr (Record × Tokenizer) := do
  let (txts, t) ← txtLoop fuel t []
  .ok (d.mk' (.TXT txts), t)

/-- parser_auth.rs:18-25 `struct AuthParsingState` (without the file name, used in messages only). -/
structure AuthState where
  zone : Name
  subZones : List Name
  currentOrig : Name
  currentTtl : UInt32
  minTtl : UInt32

/-- The end of an entry, e.g. parser_auth.rs:238-243: a newline or the end of the file. -/
def endOfEntry (t : Tokenizer) : Out ParseErr Tokenizer := do
  let (next, t) ← tok t.nextAfterBlanks
  match next with
  | .newLine => .ok t
  | .end => .ok t
  | other => .err (.unexpectedToken other)

/-- `assert!(matches!(tokenizer.next(), Ok(tok)))` in parser_auth.rs:133 and 155. -/
def assertNext (t : Tokenizer) (want : Token) : Out ParseErr Tokenizer :=
  match t.next with
  | .ok (got, t) => if got = want then .ok t else .panic .assert
  | .err _ => .panic .assert
  | .panic k => .panic k
  | .diverge => .diverge

/-- parser_auth.rs:132-151 `parse_origin`. -/
def parseOrigin (t : Tokenizer) (st : AuthState) : Out ParseErr (Name × Tokenizer) := do
  let t ← assertNext t .originDir
  let (origin, t) ← tok t.nextAfterBlanks
  match origin with
  | .string s => do
    ensureAbsoluteName s
    let origin ← nm (Name.fromString s)
    ensureNameInAuthZone origin st.zone st.subZones
    let t ← endOfEntry t
    .ok (origin, t)
  | other => .err (.unexpectedToken other)

/-- parser_auth.rs:158-162: the file name of an `$INCLUDE`. -/
def includeFile : Token → Option Str
  | .number n => some (toString n.toNat).toList
  | .string s => some s
  | _ => none

/-- parser_auth.rs:154-180 `parse_include`: file name and origin. -/
def parseInclude (t : Tokenizer) (st : AuthState) : Out ParseErr (Str × Name × Tokenizer) := do
  let t ← assertNext t .includeDir
  let (fileTok, t) ← tok t.nextAfterBlanks
  match includeFile fileTok with
  | none => .err (.unexpectedToken fileTok)
  | some fileName => do
    let (domainOrNewline, t) ← tok t.nextAfterBlanks
    match domainOrNewline with
    | .string s => do
      let (after, t) ← tok t.nextAfterBlanks
      let name ← adjustName st.currentOrig s
      ensureNameInAuthZone name st.zone st.subZones
      if after = .newLine ∨ after = .end then .ok (fileName, name, t) else .err (.unexpectedToken after)
    | other =>
      if other = .newLine ∨ other = .end then .ok (fileName, st.currentOrig, t) else .err (.unexpectedToken other)

/-- parser_auth.rs:185-194: the owner; `tokenizer.next()` yields the token seen by `peek`, anything else is
`unreachable!()`. -/
def parseOwner (t : Tokenizer) (origin : Name) (check : Name → Out ParseErr Unit) : Out ParseErr (Name × Tokenizer) :=
  match t.next with
  | .ok (.blank, t) => .ok (origin, t)
  | .ok (.at, t) => .ok (origin, t)
  | .ok (.string s, t) => do
    let name ← adjustName origin s
    check name
    .ok (name, t)
  | .ok _ => .panic .explicit
  | .err _ => .panic .explicit
  | .panic k => .panic k
  | .diverge => .diverge

/-- parser_auth.rs:221-236: data of a record by type. -/
def parseAuthData (fuel : Nat) (t : Tokenizer) (origin : Name) (ty : RecordType) (d : RecData) :
    Out ParseErr (Record × Tokenizer) :=
  match ty with
  | .A => parseA t d
  | .NS => parseNs t origin d
  | .CNAME => parseCname t origin d
  | .WKS => parseWks fuel t d
  | .PTR => parsePtr t d
  | .HINFO => parseHinfo t d
  | .MX => parseMx t origin d
  | .TXT => parseTxt fuel t d
  | .SOA => .err .unexpectedRecord
  | _ => .panic .explicit

/-- parser_auth.rs:184-244 `parse_record`. -/
def parseRecord (fuel : Nat) (t : Tokenizer) (st : AuthState) : Out ParseErr (Record × Tokenizer) := do
  let (node, t) ← parseOwner t st.currentOrig fun name => ensureNameInAuthZone name st.zone st.subZones
  let ((ttl, cls), t) ← parseTtlClass t
  let cls := cls.getD .IN
  let ttl := ttl.getD st.currentTtl
  ensureClassIsSupported cls
  ensureMinTtl st.minTtl ttl
  let (typeTok, t) ← tok t.nextAfterBlanks
  match typeTok with
  | .string s =>
    match RecordType.fromStr s with
    | none => .err .malformedData
    | some ty =>
      if !ty.isSupportedForRecords then .err .unexpectedRecord
      else do
        let (record, t) ← parseAuthData fuel t st.currentOrig ty { node := node, cls := cls, ttl := ttl }
        let t ← endOfEntry t
        .ok (record, t)
  | other => .err (.unexpectedToken other)

/-- The file system: the lines of the files that can be opened. -/
abbrev Files := Str → Option (List (Option Str))

/-- parser_auth.rs:86-129 `parse_entries`, from the state of the loop on, with fuel; 64-81 `parse_included_file` is
inlined: the state of the including file is left untouched. -/
def parseEntries (fs : Files) (o : HashOrder) : Nat → AuthState → Tokenizer → Zone → Out ParseErr Zone
  | 0, _, _, _ => .diverge
  | fuel + 1, st, t, z => do
    let (next, t) ← tok t.peek
    match next with
    | .end => .ok z
    | .originDir => do
      let (origin, t) ← parseOrigin t st
      parseEntries fs o fuel { st with currentOrig := origin } t z
    | .includeDir => do
      let (path, origin, t) ← parseInclude t st
      match fs path with
      | none => .err .readingErr
      | some file => do
        let included ← parseEntries fs o fuel { st with currentOrig := origin } (Tokenizer.start file) (Zone.new st.zone)
        parseEntries fs o fuel st t (z.extend o included)
    | .string _ | .at | .blank => do
      let (record, t) ← parseRecord fuel t st
      parseEntries fs o fuel { st with currentTtl := record.ttl } t (z.insert record)
    | other => .err (.unexpectedToken other)

/-- parser_auth.rs:471-523 `parse_starting_soa_record`: the record and the minimum TTL. -/
def parseStartingSoa (t : Tokenizer) (st : AuthState) : Out ParseErr (Record × UInt32 × Tokenizer) := do
  let (first, t) ← tok t.next
  let node ← match first with
    | .string s => adjustName st.zone s
    | .blank => .ok st.zone
    | .at => .ok st.zone
    | other => .err (.unexpectedToken other)
  if node ≠ st.zone then .err .nameNotInRootNode
  else do
    let ((ttl, cls), t) ← parseTtlClass t
    match cls with
    | none => .err .malformedData
    | some cls => do
      let ttl := ttl.getD st.currentTtl
      ensureClassIsSupported cls
      let (typeTok, t) ← tok t.nextAfterBlanks
      match typeTok with
      | .string s =>
        match RecordType.fromStr s with
        | none => .err .malformedData
        | some ty =>
          if ty ≠ .SOA then .err .unexpectedRecord
          else do
            let (soa, minimum, t) ← parseSoa t st.zone { node := node, cls := cls, ttl := ttl }
            ensureMinTtl minimum ttl
            let t ← endOfEntry t
            .ok (soa, minimum, t)
      | other => .err (.unexpectedToken other)

/-- parser.rs:18-24 `struct SubParsingParams`. -/
structure SubParams where
  filePath : Str
  zone : Name
  startingTtl : UInt32
  minTtl : UInt32

/-- parser.rs:10-15 `struct ParsingParams`. -/
structure Params where
  filePath : Str
  zone : Name
  startingTtl : UInt32
  subZones : List SubParams

/-- parser_auth.rs:30-59 `parse_auth_zone_file`. -/
def parseAuthZoneFile (fs : Files) (o : HashOrder) (fuel : Nat) (conf : Params) : Out ParseErr Zone :=
  match fs conf.filePath with
  | none => .err .readingErr
  | some file => do
    let st : AuthState :=
      { zone := conf.zone, subZones := conf.subZones.map (·.zone), currentOrig := conf.zone,
        currentTtl := conf.startingTtl, minTtl := 0 }
    let (soa, minimum, t) ← parseStartingSoa (Tokenizer.start file) st
    let zone ← parseEntries fs o fuel { st with minTtl := minimum } t (Zone.new conf.zone)
    .ok (zone.insert soa)

/-- The data by type in parser_sub.rs:78-127. -/
def parseSubData (t : Tokenizer) (zone : Name) (ty : Option RecordType) (d : RecData) : Out ParseErr (Record × Tokenizer) :=
  match ty with
  | some .A => parseA t d
  | some .NS => do
    ensureNameInZone d.node zone
    parseNs t zone d
  | some _ => .err .unexpectedRecord
  | none => .err .malformedData

/-- parser_sub.rs:78-127 `parse_record`. -/
def parseSubRecord (t : Tokenizer) (zone : Name) (currentTtl minTtl : UInt32) : Out ParseErr (Record × Tokenizer) := do
  let (node, t) ← parseOwner t zone fun name => ensureNameInZone name zone
  let ((ttl, cls), t) ← parseTtlClass t
  let cls := cls.getD .IN
  let ttl := ttl.getD currentTtl
  ensureClassIsSupported cls
  ensureMinTtl minTtl ttl
  let (typeTok, t) ← tok t.nextAfterBlanks
  match typeTok with
  | .string s => do
    let (record, t) ← parseSubData t zone (RecordType.fromStr s) { node := node, cls := cls, ttl := ttl }
    let t ← endOfEntry t
    .ok (record, t)
  | other => .err (.unexpectedToken other)

/-- parser_sub.rs:39-74 `parse_entries`, with fuel. -/
def parseSubEntries : Nat → Name → UInt32 → UInt32 → Tokenizer → Zone → Out ParseErr Zone
  | 0, _, _, _, _, _ => .diverge
  | fuel + 1, zone, currentTtl, minTtl, t, z => do
    let (next, t) ← tok t.peek
    match next with
    | .end => .ok z
    | .string _ | .at | .blank => do
      let (record, t) ← parseSubRecord t zone currentTtl minTtl
      parseSubEntries fuel zone record.ttl minTtl t (z.insert record)
    | other => .err (.unexpectedToken other)

/-- parser_sub.rs:19-34 `parse_sub_zone_file`. -/
def parseSubZoneFile (fs : Files) (fuel : Nat) (conf : SubParams) : Out ParseErr Zone :=
  match fs conf.filePath with
  | none => .err .readingErr
  | some file => parseSubEntries fuel conf.zone conf.startingTtl conf.minTtl (Tokenizer.start file) (Zone.new conf.zone)

/-- records.rs:300-305 `ns_data`. -/
def nsData {ε : Type} (r : Record) : Out ε Name :=
  match r.data with
  | .NS name => .ok name
  | _ => .panic .explicit

/-- `for x in xs { f(x)? }`. -/
def forAll {ε α : Type} (f : α → Out ε Unit) : List α → Out ε Unit
  | [] => .ok ()
  | x :: xs => do
    f x
    forAll f xs

/-- Is there an element that satisfies `f`? (the loops of 134-139 and 149-154, `find` in 113-116) -/
def anyM {ε α : Type} (f : α → Out ε Bool) : List α → Out ε Bool
  | [] => .ok false
  | x :: xs => do
    let b ← f x
    if b then .ok true else anyM f xs

/-- parser.rs:58-74 `validate_auth_zone`. -/
def validateAuthZone (o : HashOrder) (zones : ManagedZone) : Out ParseErr Unit :=
  let nsRecords := zones.authZone.getAllOfType o .NS
  if nsRecords.isEmpty then .err .malformedZone
  else forAll (fun r => if r.node.isInZoneRoot zones.authZone.zone then .ok () else .err .nameNotInRootNode) nsRecords

/-- parser.rs:128-140 `search_glue_records`. -/
def searchGlue (p : Profile) (nsName : Name) (sub : Zone) : Out ParseErr Bool := do
  let aRecords ← sub.get p nsName .A
  match aRecords with
  | none => .ok false
  | some rs => .ok (rs.any fun r => nsName == r.node)

/-- parser.rs:143-155 `search_referred_ns`. -/
def searchReferredNs (p : Profile) (aNode : Name) (sub : Zone) : Out ParseErr Bool := do
  let nsRecords ← sub.get p sub.zone .NS
  match nsRecords with
  | none => .ok false
  | some rs => anyM (fun r => do let n ← nsData r; .ok (aNode == n)) rs

/-- parser.rs:89-108: the checks of one NS record of a sub zone. -/
def validateSubNs (p : Profile) (subzone : Zone) (zones : ManagedZone) (r : Record) : Out ParseErr Unit :=
  if !r.node.isInZoneRoot subzone.zone then .err .nameNotInRootNode
  else do
    let pointed ← nsData r
    if !pointed.isInZone zones.authZone.zone then .ok ()
    else forAll (fun sub : Zone =>
      if pointed.isInZone sub.zone then do
        let found ← searchGlue p pointed sub
        if found then .ok () else .err .malformedZone
      else .ok ()) zones.subZones

/-- parser.rs:111-122: the check of one A record of a sub zone. -/
def validateSubA (p : Profile) (zones : ManagedZone) (r : Record) : Out ParseErr Unit := do
  let found ← anyM (fun sub => searchReferredNs p r.node sub) zones.subZones
  if found then .ok () else .err .malformedZone

/-- parser.rs:81-125 `validate_subzone`. -/
def validateSubzone (p : Profile) (o : HashOrder) (zones : ManagedZone) (subzone : Zone) : Out ParseErr Unit :=
  let nsRecords := subzone.getAllOfType o .NS
  if nsRecords.isEmpty then .err .malformedZone
  else do
    forAll (validateSubNs p subzone zones) nsRecords
    forAll (validateSubA p zones) (subzone.getAllOfType o .A)

/-- The loop parser.rs:32-40. -/
def parseSubZones (fs : Files) (fuel : Nat) : List SubParams → Out ParseErr (List Zone)
  | [] => .ok []
  | c :: cs => do
    let z ← parseSubZoneFile fs fuel c
    let zs ← parseSubZones fs fuel cs
    .ok (z :: zs)

/-- parser.rs:28-53 `parse_zone_files`. -/
def parseZoneFiles (p : Profile) (fs : Files) (o : HashOrder) (fuel : Nat) (conf : Params) : Out ParseErr ManagedZone := do
  let auth ← parseAuthZoneFile fs o fuel conf
  let subs ← parseSubZones fs fuel conf.subZones
  let zones : ManagedZone := { authZone := auth, subZones := subs }
  validateAuthZone o zones
  forAll (validateSubzone p o zones) zones.subZones
  .ok zones

end ZoneParser

end Ariadne
