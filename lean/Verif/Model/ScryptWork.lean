import Verif.Model.Scrypt
/-!
# The work of the scrypt operation

The functions of Model/Scrypt once more, each with a record of what it has done so far: calls of `xor_salsa8`, bytes given to `SHA256_Update`, calls of
`SHA256_Final`, and accesses to the scratchpad. Which blocks openssl processes is determined by the numbers of bytes.
-/
namespace Eni
namespace Scrypt

/-- What has been done. -/
structure Work where
  salsa : Nat      -- calls of xor_salsa8
  bytes : Nat      -- bytes given to SHA256_Update
  finals : Nat     -- calls of SHA256_Final
  stores : Nat     -- words written to the scratchpad
  loads : Nat      -- words read from the scratchpad
  deriving DecidableEq, Repr

namespace Work
/-- `SHA256_Update` with `n` bytes -/
def update (w : Work) (n : Nat) : Work := { w with bytes := w.bytes + n }
/-- `SHA256_Final` -/
def final (w : Work) : Work := { w with finals := w.finals + 1 }
end Work

variable (A : Sha)

/-- `HMAC_SHA256_Init` (scrypt.cpp 68-101). -/
def hmacInitW (K : Bytes) (w : Work) : Res (HCtx A × Work) := do
  let (K, w) := if K.length > 64 then (A.final (A.update A.init K), (w.update K.length).final) else (K, w)
  let ipad ← padded 0x36 K
  let w := w.update ipad.length
  let opad ← padded 0x5c K
  let w := w.update opad.length
  .ok (⟨A.update A.init ipad, A.update A.init opad⟩, w)

/-- `HMAC_SHA256_Update` (scrypt.cpp 104-109). -/
def hmacUpdateW (c : HCtx A) (m : Bytes) (w : Work) : HCtx A × Work := ({ c with ictx := A.update c.ictx m }, w.update m.length)

/-- `HMAC_SHA256_Final` (scrypt.cpp 112-128): the 32 bytes of `ihash` go to the outer hash. -/
def hmacFinalW (c : HCtx A) (w : Work) : Bytes × Work := (A.final (A.update c.octx (A.final c.ictx)), ((w.final).update 32).final)

/-- The loop over `j` (scrypt.cpp 165-174). -/
def pbIterW (passwd : Bytes) (c : Nat) (U : Bytes) (w : Work) : Res (Bytes × Work) :=
  if c = 18446744073709551615 then .diverge
  else do
    let ((_, T), w) ← forLoop (c - 1) (fun _ ((U, T), w) => do
      let (h, w) ← hmacInitW A passwd w
      let (h, w) := hmacUpdateW A h U w
      let (U, w) := hmacFinalW A h w
      let T ← forLoop 32 (fun k T => do
        let t ← rd T k
        let u ← rd U k
        wr T k (t ^^^ u)) T
      .ok ((U, T), w)) ((U, U), w)
    .ok (T, w)

/-- The loop over the blocks (scrypt.cpp 153-181). -/
def pbBlocksW (PS : HCtx A) (passwd : Bytes) (c dkLen i : Nat) (buf : Bytes) (w : Work) : Res (Bytes × Work) :=
  if _h : i * 32 < dkLen then do
    let ivec := be32enc (i + 1).toUInt32
    let (h, w) := hmacUpdateW A PS ivec w
    let (U, w) := hmacFinalW A h w
    let (T, w) ← pbIterW A passwd c U w
    let clen := if dkLen - i * 32 > 32 then 32 else dkLen - i * 32
    let buf ← memcpy buf (i * 32) T clen
    pbBlocksW PS passwd c dkLen (i + 1) buf w
  else .ok (buf, w)
termination_by dkLen - i * 32

/-- `PBKDF2_SHA256` (scrypt.cpp 135-185). -/
def pbkdf2W (passwd salt : Bytes) (c : Nat) (buf : Bytes) (dkLen : Nat) (w : Work) : Res (Bytes × Work) := do
  let (h, w) ← hmacInitW A passwd w
  let (h, w) := hmacUpdateW A h salt w
  pbBlocksW A h passwd c dkLen 0 buf w

/-- `xor_salsa8` (scrypt.cpp 189-253). -/
def xorSalsa8W (B C : List UInt32) (w : Work) : Res (List UInt32 × Work) := do
  let B ← xorSalsa8 B C
  .ok (B, { w with salsa := w.salsa + 1 })

/-- The two calls of `xor_salsa8` (scrypt.cpp 271-272, 278-279). -/
def mixXW (X : List UInt32) (w : Work) : Res (List UInt32 × Work) := do
  let (lo, w) ← xorSalsa8W (X.take 16) (X.drop 16) w
  let X := lo ++ X.drop 16
  let (hi, w) ← xorSalsa8W (X.drop 16) (X.take 16) w
  .ok (X.take 16 ++ hi, w)

/-- Body of the first loop (scrypt.cpp 269-273). -/
def fillStepW (i : Nat) (s : (Pad × List UInt32) × Work) : Res ((Pad × List UInt32) × Work) := do
  let (p, w) ← forLoop 32 (fun k (p, w) => do
    let x ← rd s.1.2 k
    let p ← Pad.write p (i * 32 + k) x
    .ok (p, { w with stores := w.stores + 1 })) (s.1.1, s.2)
  let (X, w) ← mixXW s.1.2 w
  .ok ((p, X), w)

/-- Body of the second loop (scrypt.cpp 274-280). -/
def mixStepW (p : Pad) (X : List UInt32) (w : Work) : Res (List UInt32 × Work) := do
  let x16 ← rd X 16
  let j := 32 * (x16 &&& 1023)
  let (X, w) ← forLoop 32 (fun k ((X : List UInt32), (w : Work)) => do
    let x ← rd X k
    let v ← p.read (j.toNat + k)
    let X ← wr X k (x ^^^ v)
    .ok (X, { w with loads := w.loads + 1 })) (X, w)
  mixXW X w

/-- `scrypt_1024_1_1_256_sp_generic` (scrypt.cpp 255-286). -/
def coreW (input : Bytes) (output B : Bytes) (X : List UInt32) (p : Pad) (w : Work) : Res (Bytes × Work) := do
  let (B, w) ← pbkdf2W A input input 1 B 128 w
  let X ← forLoop 32 (fun k X => do
    let x ← le32dec B (4 * k)
    wr X k x) X
  let ((p, X), w) ← forLoop 1024 fillStepW ((p, X), w)
  let (X, w) ← forLoop 1024 (fun _ (X, w) => mixStepW p X w) (X, w)
  let B ← forLoop 32 (fun k B => do
    let x ← rd X k
    le32enc B (4 * k) x) B
  pbkdf2W A input B 1 output 32 w

/-- `Scrypt::run` (eni_scrypt.cpp 31-61) without the text of the result: what `scrypt_1024_1_1_256` leaves in `hash` (scrypt.cpp 324-328), and the work. -/
def runW (E : Env) (s : Bytes) : Res (Bytes × Work) := do
  let s := if s.length % 2 ≠ 0 then 48 :: s else s
  let input ← unhex s (List.replicate 80 0)
  coreW A input E.hash E.B E.X E.pad ⟨0, 0, 0, 0, 0⟩

end Scrypt
end Eni
