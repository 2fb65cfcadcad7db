import Verif.Model.HashLoop
import Verif.Model.Reverse
import Verif.Model.Scrypt
import Verif.Model.Crypto
import Verif.Model.JsonTool
/-!
# The same code where `char` is unsigned

Whether plain `char` is signed is left to the implementation: it is on x86, it is not on ARM and POWER. The other models take it to be signed. Here are
the places of the code in which the value of a `char` matters, for either kind of `char`:
the string hash functions (StringHasher.h), the character tests of the scanner (Parser.h), the printing of strings (Value.cpp), and the decoding of
hexadecimal texts (eni_crypto.cpp, eni_scrypt.cpp). Everywhere else `char`s are copied or compared with each other for equality.
-/
namespace Eni.Plat

/-- The kind of plain `char`. -/
inductive Ch where
  | signed
  | unsigned
  deriving DecidableEq, Repr

/-- The value of a `char` with the given bits (integral promotion to `int`). -/
def Ch.val : Ch → UInt8 → Int
  | .signed, c => if c < 128 then c.toNat else (c.toNat : Int) - 256
  | .unsigned, c => c.toNat

/-- Conversion of an `int` to `uint32_t`. -/
def toU32 (z : Int) : UInt32 := UInt32.ofNat (z % 4294967296).toNat

/-- Conversion of an `int` to `char` or `unsigned char`: the bits. -/
def toByte (z : Int) : UInt8 := (z % 256).toNat.toUInt8

/-! ### String hash functions -/

/-- One round of PJW (StringHasher.h 99-105); `x` is `pKey[i]` converted to `uint32_t`. -/
def pjwRound (h x : UInt32) : UInt32 :=
  let h := (h <<< 4) + x
  let test := h &&& 0xF0000000
  if test ≠ 0 then (h ^^^ (test >>> 24)) &&& ~~~(0xF0000000 : UInt32) else h

/-- One round of ELF (StringHasher.h 120-125). -/
def elfRound (h x : UInt32) : UInt32 :=
  let h := (h <<< 4) + x
  let t := h &&& 0xF0000000
  let h := if t ≠ 0 then h ^^^ (t >>> 24) else h
  h &&& ~~~t

/-- The loop bodies (StringHasher.h 59-62, 76-78, 99-105, 120-125, 141-142, 159-160, 176-177, 194-195, 211-212, 229-232, 249-253); `x` is `pKey[i]`
converted to `uint32_t`. -/
def round : Hasher.Fn → UInt32 → Hasher.Loc → UInt32 → Hasher.Loc
  | .rs, _, st, x => ⟨st.h * st.a + x, st.a * 378551⟩
  | .js, _, st, x => ⟨st.h ^^^ ((st.h <<< 5) + x + (st.h >>> 2)), st.a⟩
  | .pjw, _, st, x => ⟨pjwRound st.h x, st.a⟩
  | .elf, _, st, x => ⟨elfRound st.h x, st.a⟩
  | .bkdr, _, st, x => ⟨st.h * 131 + x, st.a⟩
  | .sdbm, _, st, x => ⟨x + (st.h <<< 6) + (st.h <<< 16) - st.h, st.a⟩
  | .djb, _, st, x => ⟨((st.h <<< 5) + st.h) + x, st.a⟩
  | .dek, _, st, x => ⟨((st.h <<< 5) ^^^ (st.h >>> 27)) ^^^ x, st.a⟩
  | .bp, _, st, x => ⟨(st.h <<< 7) ^^^ x, st.a⟩
  | .fnv, _, st, x => ⟨(st.h * 0x811C9DC5) ^^^ x, st.a⟩
  | .ap, i, st, x =>
    ⟨st.h ^^^ (if i &&& 1 = 0 then (st.h <<< 7) ^^^ (x * (st.h >>> 3)) else ~~~((st.h <<< 11) + (x ^^^ (st.h >>> 5)))), st.a⟩

/-- `StringHasher<fn>()(pKey)` returns `v` (StringHasher.h 50-258). -/
def Returns (ch : Ch) (fn : Hasher.Fn) (s : Bytes) (v : UInt32) : Prop :=
  ∃ r, Hasher.Loop (fun i st c => round fn i st (toU32 (ch.val c))) s 0 (Hasher.start s fn) r ∧ r.h = v

/-- `StringHasher<SDBM>` (StringHasher.h 153-164), the hash function of `StringMap` (StringMap.h 17). Simplified as in Model/StringHasher: recursive over the
text, i.e. for keys below 2^32 bytes. -/
def sdbm (ch : Ch) (s : Bytes) : UInt32 := s.foldl (fun h c => toU32 (ch.val c) + (h <<< 6) + (h <<< 16) - h) 0

/-- One character of `StringHasher<ES>` (StringHasher.h 283-308), as in Model/StringHasher: the `ctype.h` predicates are undefined for negative arguments
and false (C locale) from 128 on. -/
def esStep (ch : Ch) (st : UInt32 × UInt32) (c : UInt8) : Option (UInt32 × UInt32) :=
  let (result, dot) := st
  let x := ch.val c
  if x = 46 then some (result, dot + 1)
  else if x < 0 then none
  else if 48 ≤ x ∧ x ≤ 57 then some (result ||| ((1 : UInt32) <<< 27), dot)
  else if x = 95 then some (result ||| ((1 : UInt32) <<< 26), dot)
  else if 65 ≤ x ∧ x ≤ 90 then some (result ||| ((1 : UInt32) <<< UInt32.ofNat (x - 65).toNat), dot)
  else if 97 ≤ x ∧ x ≤ 122 then some (result ||| ((1 : UInt32) <<< UInt32.ofNat (x - 97).toNat), dot)
  else some (result, dot)

/-- The loop of `StringHasher<ES>` (StringHasher.h 282-309). -/
def esLoop (ch : Ch) (st : UInt32 × UInt32) : Bytes → Option (UInt32 × UInt32)
  | [] => some st
  | c :: cs =>
    match esStep ch st c with
    | none => none
    | some st => esLoop ch st cs

/-- `StringHasher<ES>::operator()` (StringHasher.h 277-312). -/
def es (ch : Ch) (s : Bytes) : Res UInt32 :=
  match esLoop ch (0, 0) s with
  | none => .ub .outOfBounds
  | some (result, dot) => .ok (result ||| (dot <<< 28))

/-! ### The scanner -/

/-- `is_digit` (Parser.h 292-294). -/
def isDigit (ch : Ch) (c : UInt8) : Bool := decide (48 ≤ ch.val c) && decide (ch.val c ≤ 57)

/-- `is_pos_digit` (Parser.h 295-297). -/
def isPosDigit (ch : Ch) (c : UInt8) : Bool := decide (49 ≤ ch.val c) && decide (ch.val c ≤ 57)

/-- One character test of `valid_code` (Parser.h 221-223). -/
def isHexCode (ch : Ch) (c : UInt8) : Bool :=
  (decide (48 ≤ ch.val c) && decide (ch.val c ≤ 57)) || (decide (97 ≤ ch.val c) && decide (ch.val c ≤ 102)) ||
  (decide (65 ≤ ch.val c) && decide (ch.val c ≤ 70))

/-- `return code;` in `parse_codepoint` (Parser.h 216): an `int` converted to `char`. -/
def codeByte (code : Nat) : UInt8 := toByte code

/-! ### Printing -/

/-- One character of a string literal (Value.cpp 137-147); `%04X` (143) gets the promoted character. -/
def printChar (ch : Ch) (c : UInt8) : Bytes :=
  if ch.val c = 34 ∨ ch.val c = 92 then [92, c]
  else if 0 ≤ ch.val c ∧ ch.val c < 32 then [92, 117, 48, 48, Value.hexUp ((ch.val c).toNat / 16), Value.hexUp ((ch.val c).toNat % 16)]
  else [c]

/-! ### Hexadecimal texts -/

/-- The lambda `h2d` of `hex2digit` (eni_crypto.cpp 22), and `c < 'a' ? c - '0' : c - 'a' + 10` (eni_scrypt.cpp 46, 48): an `int`. -/
def h2d (ch : Ch) (c : UInt8) : Int := if ch.val c < 97 then ch.val c - 48 else ch.val c - 97 + 10

/-- `hex2digit` (eni_crypto.cpp 20-24): the sum is converted to `unsigned char`. -/
def hex2digit (ch : Ch) (h1 h0 : UInt8) : UInt8 := toByte (h2d ch h1 * 16 + h2d ch h0)

/-- The loop of `hex2str` (eni_crypto.cpp 42-44), as in Model/Crypto. -/
def hexLoop (ch : Ch) : Bytes → Bytes → Res Bytes
  | [], acc => .ok acc
  | [_], _ => .ub .outOfBounds
  | a :: b :: r, acc => hexLoop ch r (acc ++ [hex2digit ch a b])

/-- `hex2str` (eni_crypto.cpp 37-46). -/
def hex2str (ch : Ch) (h : Bytes) : Res (Option Bytes) :=
  if h.length % 2 ≠ 0 then .ok none
  else do
    let s ← hexLoop ch h []
    .ok (some s)

/-- The digit computed by the scrypt operation (eni_scrypt.cpp 46, 48), added to a `char`. -/
def nibble (ch : Ch) (c : UInt8) : UInt8 := toByte (h2d ch c)

/-! ### Objects and the callbacks -/

section
variable {V : Type}

/-- `super::insert(pKey, exist)` (bits/HashTable.tcc 114-142). -/
def insert (ch : Ch) (m : SMap V) (k : Bytes) (v : V) : Res (SMap V × Nat × Bool) :=
  Table.insertE (sdbm ch) SEntry.keyO m k (SEntry.mk' k v)

/-- `m[k] = v` (StringMap.h 72-76). -/
def assign (ch : Ch) (m : SMap V) (k : Bytes) (v : V) : Res (SMap V × Bool) := do
  let (m', i, exist) ← insert ch m k v
  if exist then
    match m'.buckets[i]? with
    | some ⟨h, .full e⟩ => .ok ({ m' with buckets := m'.buckets.set i ⟨h, .full { e with val := v }⟩ }, true)
    | _ => .ub .nullDeref
  else .ok (m', false)

/-- `find(k)` (StringMap.h 37, bits/HashTable.tcc 167-186). -/
def find (ch : Ch) (m : SMap V) (k : Bytes) : Res (Option V) := do
  match ← Table.findE (sdbm ch) SEntry.keyO m k with
  | none => .ok none
  | some e => .ok (some e.val)

end

/-- `set_parent` (Callbacks.h 80-93). -/
def setParent (ch : Ch) (cb : Json.CbState) (v : Value) : Res Json.CbState :=
  match cb.stack with
  | [] => .ok { cb with root := v }
  | (.obj m, key) :: rest => do
    let (m, _) ← assign ch m key v
    .ok { cb with stack := (.obj m, key) :: rest }
  | (.arr vs, key) :: rest => .ok { cb with stack := (.arr (vs ++ [v]), key) :: rest }
  | _ :: _ => .ok cb

/-- The callbacks (Callbacks.h 31-77), as in Model/JsonParser. -/
def cbStep (ch : Ch) (cb : Json.CbState) : Json.Ev → Res Json.CbState
  | .boolean b => setParent ch cb (.bool b)
  | .number s => setParent ch cb (.int (Value.s256OfText s))
  | .string s true =>
    match cb.stack with
    | [] => .ub .outOfBounds
    | (v, _) :: rest => .ok { cb with stack := (v, s) :: rest }
  | .string s false => setParent ch cb (.str s)
  | .beginArray => .ok { cb with stack := (.arr [], []) :: cb.stack }
  | .beginObject => .ok { cb with stack := (.obj (SMap.new 8), []) :: cb.stack }
  | .endArray | .endObject =>
    match cb.stack with
    | [] => .ub .outOfBounds
    | (v, _) :: rest => setParent ch { cb with stack := rest } (Json.copyTop v)

/-- The callback invocations in order. -/
def cbRun (ch : Ch) (cb : Json.CbState) : List Json.Ev → Res Json.CbState
  | [] => .ok cb
  | e :: es => do
    let cb ← cbStep ch cb e
    cbRun ch cb es

/-- `Parser(const std::string&)` (Parser.h 44-54). Simplified: the scanner is the one of Model/JsonParser, which uses the character tests `Json.isDigit`,
`Json.isPosDigit`, `Json.isHex`; they are the ones above for either kind of `char` (`C113_scanner`). -/
def parse (ch : Ch) (L : Json.Layout) (s : Bytes) : Res Json.Parsed :=
  match Json.parseValue L (s.length + 1) ⟨s, []⟩ with
  | .ok _ st => do
    let cb ← cbRun ch .init st.ev
    .ok ⟨true, cb.root⟩
  | .err _ st => do
    let cb ← cbRun ch .init st.ev
    .ok ⟨false, cb.root⟩
  | .ub u => .ub u
  | .diverge => .diverge

/-! ### Entry points -/

variable {S : Type}

/-- `EniBase(const std::string&)` (eni.cpp 14-20). -/
def construct (ch : Ch) (H : Base.Hooks S) (L : Json.Layout) (s : Bytes) : Res (Base.Obj S) := do
  let p ← parse ch L s
  if p.success then .ok ⟨false, false, Json.copyTop p.root, .arr [], H.init, []⟩
  else .exit 87

/-- `OP_gas(char*)` (eni.h 17-25). -/
def opGas (ch : Ch) (H : Base.Hooks S) (L : Json.Layout) (s : Bytes) : Res Nat := do
  let o ← construct ch H L (cstr s)
  (Base.getGas H o).2

/-- `OP_run(char*)` (eni.h 27-33). Simplified: printing is `Value.print`, which uses `Value.printChar`; it is `printChar` above for either kind of `char`
(`C113_scanner`). -/
def opRun (ch : Ch) (H : Base.Hooks S) (L : Json.Layout) (s : Bytes) : Res (Option Bytes) := do
  let o ← construct ch H L (cstr s)
  (Base.start H o).2

/-- The loop that decodes the string (eni_scrypt.cpp 43-49), as in Model/Scrypt. -/
def unhex (ch : Ch) (s : Bytes) (input : Bytes) : Res Bytes :=
  Scrypt.forLoop (s.length / 2) (fun i input => do
    let c1 ← Scrypt.rd s (2 * i)
    let c2 ← Scrypt.rd s (2 * i + 1)
    let x ← Scrypt.rd input i
    let input ← Scrypt.wr input i (x + nibble ch (Scrypt.tolower c1))
    let x ← Scrypt.rd input i
    let input ← Scrypt.wr input i (x <<< 4)
    let x ← Scrypt.rd input i
    Scrypt.wr input i (x + nibble ch (Scrypt.tolower c2))) input

/-- The scrypt operation (eni_scrypt.cpp 13-61), as in Model/Scrypt: `run` decodes with `unhex` above. The bytes of the digest are masked before they are
printed (`hash[i] & 0xff`, 56). -/
def scryptOp (ch : Ch) (A : Sha) (E : Scrypt.Env) : Base.Hooks Bytes :=
  { Scrypt.op A E with
    run := fun s ret =>
      let s := if s.length % 2 ≠ 0 then 48 :: s else s
      match (do
        let input ← unhex ch s (List.replicate 80 0)
        let h ← Scrypt.core A input E.hash E.B E.X E.pad
        .ok (Scrypt.hexOut h)) with
      | .ok t => (s, ret ++ [Value.str t], .ok true)
      | .throw e => (s, ret, .throw e)
      | .ub u => (s, ret, .ub u)
      | .diverge => (s, ret, .diverge)
      | .exit c => (s, ret, .exit c) }

/-- `RSADecrypt` (eni_crypto.cpp 162-185), as in Model/Crypto. -/
def decryptOp (ch : Ch) (pem : Bytes → Option Crypto.Key) : Base.Hooks Crypto.St :=
  { Crypto.decryptOp pem with
    parse := fun o vs =>
      match Value.argAt vs 0 >>= Value.toStr with
      | .ok t =>
        match pem (cstr t) with
        | none => ({ o with key := none }, .ok false)
        | some k =>
          match Value.argAt vs 1 >>= Value.toStr with
          | .ok h =>
            match hex2str ch h with
            | .ok none => ({ o with key := some k }, .ok false)
            | .ok (some m) => (⟨some k, m⟩, .ok true)
            | r => ({ o with key := some k }, Crypto.fail r)
          | r => ({ o with key := some k }, Crypto.fail r)
      | r => (o, Crypto.fail r) }

/-! ### The json operation -/

/-- `parseString` (eni_json.cpp 14-18). -/
def parseString (ch : Ch) (L : Json.Layout) (raw : Bytes) : Res Bytes := do
  let p ← parse ch L raw
  if p.success then p.root.toStr else .ok []

/-- `getkey` (eni_json.cpp 75-78), as in Model/JsonTool. -/
def getKey (ch : Ch) (E : JsonTool.Env) (data : Bytes) (t : JsonTool.Tok) : Res Bytes :=
  if 0 ≤ t.start - 1 ∧ t.start - 1 ≤ t.stop + 1 ∧ t.stop + 1 ≤ data.length + 1 then
    parseString ch E.L (((data ++ [0]).drop (t.start - 1).toNat).take ((t.stop + 1) - (t.start - 1)).toNat)
  else .ub .outOfBounds

/-- The loop of `objectTokens` (eni_json.cpp 79-93), as in Model/JsonTool. -/
def objectLoop (ch : Ch) (E : JsonTool.Env) (data : Bytes) (before : Int) :
    Int → Option JsonTool.Tok → List (Bytes × JsonTool.Tok) → List JsonTool.Tok → Res (List (Bytes × JsonTool.Tok))
  | _, _, m, [] => .ok m
  | after, key, m, t :: ts =>
    if t.start < after then objectLoop ch E data before after key m ts
    else if t.start > before then .ok m
    else
      match key with
      | none => objectLoop ch E data before t.stop (some t) m ts
      | some k => do
        let name ← getKey ch E data k
        objectLoop ch E data before t.stop none ((name, t) :: m) ts

/-- `objectTokens` (eni_json.cpp 69-95). -/
def objectTokens (ch : Ch) (E : JsonTool.Env) (data : Bytes) (start stop : Int) : Res (List (Bytes × JsonTool.Tok)) := do
  let ts ← JsonTool.internalParse E data start stop
  match ts with
  | [] => .ub .outOfBounds
  | t0 :: ts => objectLoop ch E data t0.stop t0.start none [] ts

/-- `objectGet` (eni_json.cpp 97-100). -/
def objectGet (ch : Ch) (E : JsonTool.Env) (data : Bytes) (start stop : Int) (key : Bytes) : Res Bytes := do
  let m ← objectTokens ch E data start stop
  match m.lookup key with
  | some t => JsonTool.encodeToken t
  | none => JsonTool.encodeToken ⟨.undefined, 0, 0⟩

/-- `JSON::parse` (eni_json.cpp 110-127), as in Model/JsonTool. The tokenizer is taken to be the same for either kind of `char`. -/
def parseArgs (ch : Ch) (E : JsonTool.Env) (vs : List Value) : Res (Option Bytes) := do
  let op ← Value.argAt vs 0 >>= Value.toStr
  let data ← Value.argAt vs 1 >>= Value.toStr
  let begin_ ← Value.argAt vs 2 >>= Value.toInteger
  let stop ← Value.argAt vs 3 >>= Value.toInteger
  let b := E.conv begin_
  let e := E.conv stop
  if op = JsonTool.nParseString then do
    let raw ← JsonTool.subString data b e
    let s ← parseString ch E.L raw
    .ok (some s)
  else if op = JsonTool.nParseArray then do
    let s ← JsonTool.parseArray E data b e
    .ok (some s)
  else if op = JsonTool.nArrayGet then do
    let i ← Value.argAt vs 4 >>= Value.toInteger
    let s ← JsonTool.arrayGet E data b e (E.conv i)
    .ok (some s)
  else if op = JsonTool.nObjectGet then do
    let k ← Value.argAt vs 4 >>= Value.toStr
    let s ← objectGet ch E data b e k
    .ok (some s)
  else .ok none

/-- `JSON` (eni_json.cpp 103-138), as in Model/JsonTool. -/
def jsonOp (ch : Ch) (E : JsonTool.Env) : Base.Hooks Bytes :=
  { JsonTool.op E with
    parse := fun old vs =>
      match parseArgs ch E vs with
      | .ok (some s) => (s, .ok true)
      | .ok none => (old, .ok false)
      | .throw e => (old, .throw e)
      | .ub u => (old, .ub u)
      | .diverge => (old, .diverge)
      | .exit c => (old, .exit c) }

end Eni.Plat
