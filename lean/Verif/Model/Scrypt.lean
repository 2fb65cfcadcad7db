import Verif.Model.EniBase
/-!
# The scrypt operation (tools/eni_scrypt/scrypt.h, scrypt.cpp, eni_scrypt.cpp)

SHA-256 itself comes from openssl and is not part of /repo: it is a parameter `Sha`, anything with the documented interface of
`SHA256_Init`/`Update`/`Final`. Buffers are lists of fixed length with arbitrary initial contents; every read and write checks its index.
The SSE2 variants (scrypt.cpp 288-322, compiled only with USE_SSE2) are not modelled.
-/
namespace Eni

/-- The interface of `SHA256_CTX`: contexts are values, `final` of a context that absorbed some parts is the digest of their
concatenation. -/
structure Sha where
  Ctx : Type
  init : Ctx
  update : Ctx → Bytes → Ctx
  final : Ctx → Bytes
  digest : Bytes → Bytes
  spec : ∀ parts : List Bytes, final (parts.foldl update init) = digest parts.flatten
  len : ∀ m, (digest m).length = 32

namespace Scrypt

/-- `for (i = 0; i < n; i++) body` -/
def forLoop {σ : Type} (n : Nat) (body : Nat → σ → Res σ) (s : σ) : Res σ := (List.range n).foldlM (fun s i => body i s) s

/-- `a[i]` as a value. -/
def rd {α : Type} (a : List α) (i : Nat) : Res α :=
  match a[i]? with
  | some x => .ok x
  | none => .ub .outOfBounds

/-- `a[i] = x` -/
def wr {α : Type} (a : List α) (i : Nat) (x : α) : Res (List α) :=
  if i < a.length then .ok (a.set i x) else .ub .outOfBounds

/-- `memcpy(&buf[off], src, n)` -/
def memcpy {α : Type} (buf : List α) (off : Nat) (src : List α) (n : Nat) : Res (List α) :=
  if n ≤ src.length ∧ off + n ≤ buf.length then .ok (buf.take off ++ src.take n ++ buf.drop (off + n)) else .ub .outOfBounds

/-- `be32enc` (scrypt.cpp 53-60): the four bytes at `pp`. -/
def be32enc (x : UInt32) : Bytes :=
  [((x >>> 24) &&& 0xff).toUInt8, ((x >>> 16) &&& 0xff).toUInt8, ((x >>> 8) &&& 0xff).toUInt8, (x &&& 0xff).toUInt8]

/-- `le32dec` (scrypt.h 30-35). -/
def le32dec (b : Bytes) (o : Nat) : Res UInt32 := do
  let p0 ← rd b o
  let p1 ← rd b (o + 1)
  let p2 ← rd b (o + 2)
  let p3 ← rd b (o + 3)
  .ok (p0.toUInt32 + (p1.toUInt32 <<< 8) + (p2.toUInt32 <<< 16) + (p3.toUInt32 <<< 24))

/-- `le32enc` (scrypt.h 37-44). -/
def le32enc (b : Bytes) (o : Nat) (x : UInt32) : Res Bytes := do
  let b ← wr b o (x &&& 0xff).toUInt8
  let b ← wr b (o + 1) ((x >>> 8) &&& 0xff).toUInt8
  let b ← wr b (o + 2) ((x >>> 16) &&& 0xff).toUInt8
  wr b (o + 3) ((x >>> 24) &&& 0xff).toUInt8

/-- `HMAC_SHA256_CTX` (scrypt.cpp 62-65). -/
structure HCtx (A : Sha) where
  ictx : A.Ctx
  octx : A.Ctx

variable (A : Sha)

/-- `memset(pad, c, 64); for (i = 0; i < Klen; i++) pad[i] ^= K[i];` (scrypt.cpp 87-89, 94-96). -/
def padded (c : UInt8) (K : Bytes) : Res Bytes :=
  forLoop K.length (fun i pad => do
    let p ← rd pad i
    let k ← rd K i
    wr pad i (p ^^^ k)) (List.replicate 64 c)

/-- `HMAC_SHA256_Init` (scrypt.cpp 68-101). -/
def hmacInit (K : Bytes) : Res (HCtx A) := do
  let K := if K.length > 64 then A.final (A.update A.init K) else K
  let ipad ← padded 0x36 K
  let opad ← padded 0x5c K
  .ok ⟨A.update A.init ipad, A.update A.init opad⟩

/-- `HMAC_SHA256_Update` (scrypt.cpp 104-109). -/
def hmacUpdate (c : HCtx A) (m : Bytes) : HCtx A := { c with ictx := A.update c.ictx m }

/-- `HMAC_SHA256_Final` (scrypt.cpp 112-128). -/
def hmacFinal (c : HCtx A) : Bytes := A.final (A.update c.octx (A.final c.ictx))

/-- The loop over `j` (scrypt.cpp 165-174). The counter has 64 bits: for `c = 2^64 - 1` the loop never ends. -/
def pbIter (passwd : Bytes) (c : Nat) (U : Bytes) : Res Bytes :=
  if c = 18446744073709551615 then .diverge
  else do
    let (_, T) ← forLoop (c - 1) (fun _ (U, T) => do
      let h ← hmacInit A passwd
      let U := hmacFinal A (hmacUpdate A h U)
      let T ← forLoop 32 (fun k T => do
        let t ← rd T k
        let u ← rd U k
        wr T k (t ^^^ u)) T
      .ok (U, T)) (U, U)
    .ok T

/-- The loop over the blocks (scrypt.cpp 153-181), from block `i` on. `i * 32` does not wrap as `dkLen` is far below 2^64. -/
def pbBlocks (PS : HCtx A) (passwd : Bytes) (c dkLen i : Nat) (buf : Bytes) : Res Bytes :=
  if h : i * 32 < dkLen then do
    let ivec := be32enc (i + 1).toUInt32
    let U := hmacFinal A (hmacUpdate A PS ivec)
    let T ← pbIter A passwd c U
    let clen := if dkLen - i * 32 > 32 then 32 else dkLen - i * 32
    let buf ← memcpy buf (i * 32) T clen
    pbBlocks PS passwd c dkLen (i + 1) buf
  else .ok buf
termination_by dkLen - i * 32

/-- `PBKDF2_SHA256` (scrypt.cpp 135-185): the contents of `buf` afterwards. -/
def pbkdf2 (passwd salt : Bytes) (c : Nat) (buf : Bytes) (dkLen : Nat) : Res Bytes := do
  let h ← hmacInit A passwd
  pbBlocks A (hmacUpdate A h salt) passwd c dkLen 0 buf

/-- `ROTL` (scrypt.cpp 187). -/
def rotl (a b : UInt32) : UInt32 := (a <<< b) ||| (a >>> (32 - b))

/-- The local variables of `xor_salsa8` (scrypt.cpp 191). -/
structure Regs where
  (x00 x01 x02 x03 x04 x05 x06 x07 x08 x09 x10 x11 x12 x13 x14 x15 : UInt32)
  deriving DecidableEq

/-- Body of the loop (scrypt.cpp 211-235), statement by statement. -/
def salsaRound (r : Regs) : Regs :=
  let ⟨x00, x01, x02, x03, x04, x05, x06, x07, x08, x09, x10, x11, x12, x13, x14, x15⟩ := r
  let x04 := x04 ^^^ rotl (x00 + x12) 7;  let x09 := x09 ^^^ rotl (x05 + x01) 7
  let x14 := x14 ^^^ rotl (x10 + x06) 7;  let x03 := x03 ^^^ rotl (x15 + x11) 7
  let x08 := x08 ^^^ rotl (x04 + x00) 9;  let x13 := x13 ^^^ rotl (x09 + x05) 9
  let x02 := x02 ^^^ rotl (x14 + x10) 9;  let x07 := x07 ^^^ rotl (x03 + x15) 9
  let x12 := x12 ^^^ rotl (x08 + x04) 13; let x01 := x01 ^^^ rotl (x13 + x09) 13
  let x06 := x06 ^^^ rotl (x02 + x14) 13; let x11 := x11 ^^^ rotl (x07 + x03) 13
  let x00 := x00 ^^^ rotl (x12 + x08) 18; let x05 := x05 ^^^ rotl (x01 + x13) 18
  let x10 := x10 ^^^ rotl (x06 + x02) 18; let x15 := x15 ^^^ rotl (x11 + x07) 18
  let x01 := x01 ^^^ rotl (x00 + x03) 7;  let x06 := x06 ^^^ rotl (x05 + x04) 7
  let x11 := x11 ^^^ rotl (x10 + x09) 7;  let x12 := x12 ^^^ rotl (x15 + x14) 7
  let x02 := x02 ^^^ rotl (x01 + x00) 9;  let x07 := x07 ^^^ rotl (x06 + x05) 9
  let x08 := x08 ^^^ rotl (x11 + x10) 9;  let x13 := x13 ^^^ rotl (x12 + x15) 9
  let x03 := x03 ^^^ rotl (x02 + x01) 13; let x04 := x04 ^^^ rotl (x07 + x06) 13
  let x09 := x09 ^^^ rotl (x08 + x11) 13; let x14 := x14 ^^^ rotl (x13 + x12) 13
  let x00 := x00 ^^^ rotl (x03 + x02) 18; let x05 := x05 ^^^ rotl (x04 + x07) 18
  let x10 := x10 ^^^ rotl (x09 + x08) 18; let x15 := x15 ^^^ rotl (x14 + x13) 18
  ⟨x00, x01, x02, x03, x04, x05, x06, x07, x08, x09, x10, x11, x12, x13, x14, x15⟩

/-- `xor_salsa8` (scrypt.cpp 189-253): the contents of `B` afterwards. The loop counter runs through 0, 2, 4, 6. -/
def xorSalsa8 : List UInt32 → List UInt32 → Res (List UInt32)
  | [b0, b1, b2, b3, b4, b5, b6, b7, b8, b9, b10, b11, b12, b13, b14, b15],
    [c0, c1, c2, c3, c4, c5, c6, c7, c8, c9, c10, c11, c12, c13, c14, c15] =>
    let b0 := b0 ^^^ c0; let b1 := b1 ^^^ c1; let b2 := b2 ^^^ c2; let b3 := b3 ^^^ c3
    let b4 := b4 ^^^ c4; let b5 := b5 ^^^ c5; let b6 := b6 ^^^ c6; let b7 := b7 ^^^ c7
    let b8 := b8 ^^^ c8; let b9 := b9 ^^^ c9; let b10 := b10 ^^^ c10; let b11 := b11 ^^^ c11
    let b12 := b12 ^^^ c12; let b13 := b13 ^^^ c13; let b14 := b14 ^^^ c14; let b15 := b15 ^^^ c15
    let r := salsaRound (salsaRound (salsaRound (salsaRound ⟨b0, b1, b2, b3, b4, b5, b6, b7, b8, b9, b10, b11, b12, b13, b14, b15⟩)))
    .ok [b0 + r.x00, b1 + r.x01, b2 + r.x02, b3 + r.x03, b4 + r.x04, b5 + r.x05, b6 + r.x06, b7 + r.x07,
         b8 + r.x08, b9 + r.x09, b10 + r.x10, b11 + r.x11, b12 + r.x12, b13 + r.x13, b14 + r.x14, b15 + r.x15]
  | _, _ => .ub .outOfBounds

/-- `xor_salsa8(&X[0], &X[16]); xor_salsa8(&X[16], &X[0]);` (scrypt.cpp 271-272, 278-279). -/
def mixX (X : List UInt32) : Res (List UInt32) := do
  let lo ← xorSalsa8 (X.take 16) (X.drop 16)
  let X := lo ++ X.drop 16
  let hi ← xorSalsa8 (X.drop 16) (X.take 16)
  .ok (X.take 16 ++ hi)

/-- `SCRYPT_SCRATCHPAD_SIZE` (scrypt.h 6). -/
def padSize : Nat := 131072 + 63

/-- The scratchpad as memory: `base` is its address, `size` its size in bytes, `word a` the 32-bit word at address `a`, if it was written. Simplified: only aligned
words exist (the code never mixes accesses of different width to it). -/
structure Pad where
  base : Nat
  size : Nat
  word : Nat → Option UInt32

/-- `V = (scratchpad + 63) & ~63` (scrypt.cpp 262). The sum does not wrap, as the scratchpad ends below 2^64. -/
def Pad.V (p : Pad) : Nat := (p.base + 63) / 64 * 64

/-- An access to the word at address `a` is valid: inside the scratchpad and aligned. -/
def Pad.valid (p : Pad) (a : Nat) : Prop := p.base ≤ a ∧ a + 4 ≤ p.base + p.size ∧ a % 4 = 0

instance (p : Pad) (a : Nat) : Decidable (p.valid a) := inferInstanceAs (Decidable (_ ∧ _ ∧ _))

/-- `V[i]` as a value. -/
def Pad.read (p : Pad) (i : Nat) : Res UInt32 :=
  if p.valid (p.V + 4 * i) then
    match p.word (p.V + 4 * i) with
    | some w => .ok w
    | none => .ub .uninit
  else .ub .outOfBounds

/-- `V[i] = w` -/
def Pad.write (p : Pad) (i : Nat) (w : UInt32) : Res Pad :=
  if p.valid (p.V + 4 * i) then .ok { p with word := fun a => if a = p.V + 4 * i then some w else p.word a }
  else .ub .outOfBounds

/-- Body of the first loop (scrypt.cpp 269-273); `memcpy` of 128 bytes is 32 words. -/
def fillStep (i : Nat) (s : Pad × List UInt32) : Res (Pad × List UInt32) := do
  let p ← forLoop 32 (fun k p => do
    let x ← rd s.2 k
    p.write (i * 32 + k) x) s.1
  let X ← mixX s.2
  .ok (p, X)

/-- Body of the second loop (scrypt.cpp 274-280). -/
def mixStep (p : Pad) (X : List UInt32) : Res (List UInt32) := do
  let x16 ← rd X 16
  let j := 32 * (x16 &&& 1023)
  let X ← forLoop 32 (fun k X => do
    let x ← rd X k
    let v ← p.read (j.toNat + k)
    wr X k (x ^^^ v)) X
  mixX X

/-- `scrypt_1024_1_1_256_sp_generic` (scrypt.cpp 255-286): the contents of `output` afterwards. `B`, `X` and `output` are the initial
contents of the buffers. -/
def core (input : Bytes) (output B : Bytes) (X : List UInt32) (p : Pad) : Res Bytes := do
  let B ← pbkdf2 A input input 1 B 128
  let X ← forLoop 32 (fun k X => do
    let x ← le32dec B (4 * k)
    wr X k x) X
  let (p, X) ← forLoop 1024 fillStep (p, X)
  let X ← forLoop 1024 (fun _ X => mixStep p X) X
  let B ← forLoop 32 (fun k B => do
    let x ← rd X k
    le32enc B (4 * k) x) B
  pbkdf2 A input B 1 output 32

/-- The characters of `find_first_not_of("0123456789abcdefABCDEF")` (eni_scrypt.cpp 20). -/
def isHex (c : UInt8) : Bool := (48 ≤ c && c ≤ 57) || (97 ≤ c && c ≤ 102) || (65 ≤ c && c ≤ 70)

/-- `tolower` in the C locale. -/
def tolower (c : UInt8) : UInt8 := if 65 ≤ c ∧ c ≤ 90 then c + 32 else c

/-- `c < 'a' ? c - '0' : c - 'a' + 10` (eni_scrypt.cpp 46, 48), converted to `char`, which is signed. -/
def nibble (c : UInt8) : UInt8 := if c < 97 ∨ 128 ≤ c then c - 48 else c - 97 + 10

/-- The loop that decodes the string (eni_scrypt.cpp 43-49). -/
def unhex (s : Bytes) (input : Bytes) : Res Bytes :=
  forLoop (s.length / 2) (fun i input => do
    let c1 ← rd s (2 * i)
    let c2 ← rd s (2 * i + 1)
    let x ← rd input i
    let input ← wr input i (x + nibble (tolower c1))
    let x ← rd input i
    let input ← wr input i (x <<< 4)
    let x ← rd input i
    wr input i (x + nibble (tolower c2))) input

/-- A lower-case hexadecimal digit as printed by `std::hex`. -/
def hexLow (n : UInt8) : UInt8 := if n < 10 then 48 + n else 87 + n

/-- `oss << std::hex << std::setw(2) << std::setfill('0') << (hash[i] & 0xff)` for all bytes (eni_scrypt.cpp 54-57). -/
def hexOut (h : Bytes) : Bytes := h.flatMap fun b => [hexLow (b / 16), hexLow (b % 16)]

/-- Where the scratchpad of `scrypt_1024_1_1_256` lies (scrypt.cpp 326) and what the uninitialised buffers contain. -/
structure Env where
  hash : Bytes
  B : Bytes
  X : List UInt32
  pad : Pad
  hhash : hash.length = 32
  hB : B.length = 128
  hX : X.length = 32
  hpad : pad.size = padSize

/-- The operation (eni_scrypt.cpp 13-61); the state is `m_Str`. -/
def op (E : Env) : Base.Hooks Bytes where
  init := []
  parse := fun old vs =>
    match Value.argAt vs 0 >>= Value.toStr with
    | .ok s => (s, .ok (if s.length > 160 then false else s.all isHex))
    | .throw e => (old, .throw e)
    | .ub u => (old, .ub u)
    | .diverge => (old, .diverge)
    | .exit c => (old, .exit c)
  gas := fun s => .ok ((s.length + 1) / 2 * 10)
  run := fun s ret =>
    let s := if s.length % 2 ≠ 0 then 48 :: s else s
    match (do
      let input ← unhex s (List.replicate 80 0)
      let h ← core A input E.hash E.B E.X E.pad
      .ok (hexOut h)) with
    | .ok t => (s, ret ++ [.str t], .ok true)
    | .throw e => (s, ret, .throw e)
    | .ub u => (s, ret, .ub u)
    | .diverge => (s, ret, .diverge)
    | .exit c => (s, ret, .exit c)

end Scrypt
end Eni
