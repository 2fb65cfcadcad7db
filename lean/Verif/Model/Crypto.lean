import Verif.Model.EniBase
import Mathlib.Data.Nat.Size
/-!
# Hexadecimal helpers and RSA operations (tools/eni_crypto/eni_crypto.h, eni_crypto.cpp)

openssl is not part of /repo. `RSA*` is modelled by the numbers in it; the primitives with `RSA_NO_PADDING` are those of its manual page
and of textbook RSA; reading a PEM text is a parameter. Simplified: what is acquired and released is left to
Model/CryptoRes. The allocations succeed, and strings have less than 2^31 bytes (the length is passed to openssl as `int`).
Not shown: openssl refuses some unusual keys (a modulus of more than 16384 bits, a public exponent not below the modulus, or of more than 64 bits
with a modulus of more than 3072 bits).
-/
namespace Eni.Crypto

/-- `hex2digit` (eni_crypto.cpp 20-24): `char` is signed, the sum is converted to `unsigned char`. -/
def h2d (h : UInt8) : UInt8 := if h < 97 ∨ 128 ≤ h then h - 48 else h - 97 + 10

def hex2digit (h1 h0 : UInt8) : UInt8 := h2d h1 * 16 + h2d h0

/-- A digit printed by `std::hex`. -/
def hexDigit (n : UInt8) : UInt8 := if n < 10 then 48 + n else 87 + n

/-- `str2hex` (eni_crypto.cpp 26-35): the contents of `pHex`; it always returns true. -/
def str2hex : Bytes → Bytes
  | [] => []
  | c :: cs => hexDigit (c / 16) :: hexDigit (c % 16) :: str2hex cs

/-- The loop of `hex2str` (eni_crypto.cpp 42-44). With a single character left `*(ic + 1)` is the terminating NUL and `ic += 2` jumps over
`end`. -/
def hexLoop : Bytes → Bytes → Res Bytes
  | [], acc => .ok acc
  | [_], _ => .ub .outOfBounds
  | a :: b :: r, acc => hexLoop r (acc ++ [hex2digit a b])

/-- `hex2str` (eni_crypto.cpp 37-46): false, or the contents of `pStr`. -/
def hex2str (h : Bytes) : Res (Option Bytes) :=
  if h.length % 2 ≠ 0 then .ok none
  else do
    let s ← hexLoop h []
    .ok (some s)

/-- What the code uses of an `RSA` object: modulus, exponent of the operation. A public key has the public exponent, a private key both. -/
structure Key where
  n : Nat
  e : Nat
  d : Nat

/-- `RSA_size`: number of bytes of the modulus. -/
def Key.size (k : Key) : Nat := (Nat.size k.n + 7) / 8

/-- `BN_bin2bn` -/
def toNum (b : Bytes) : Nat := b.foldl (fun n x => 256 * n + x.toNat) 0

/-- `BN_bn2binpad`: exactly `len` bytes, most significant first. -/
def toBin : Nat → Nat → Bytes
  | 0, _ => []
  | len + 1, n => toBin len (n / 256) ++ [n.toUInt8]

/-- `RSA_public_encrypt`, `RSA_private_encrypt` with `RSA_NO_PADDING`: the length must be that of the modulus and the number below it;
the bytes written, or -1. -/
def rawEncrypt (k : Key) (ex : Nat) (from_ : Bytes) : Option Bytes :=
  if from_.length ≠ k.size then none
  else if toNum from_ ≥ k.n then none
  else some (toBin k.size (toNum from_ ^ ex % k.n))

/-- `RSA_private_decrypt`, `RSA_public_decrypt` with `RSA_NO_PADDING`: the length must not exceed that of the modulus. -/
def rawDecrypt (k : Key) (ex : Nat) (from_ : Bytes) : Option Bytes :=
  if from_.length > k.size then none
  else if toNum from_ ≥ k.n then none
  else some (toBin k.size (toNum from_ ^ ex % k.n))

/-- Body of `pub_encrypt` (eni_crypto.cpp 72-86) and `priv_encrypt` (101-115): the message is padded with NUL and the first `size` bytes are
read. -/
def encryptWith (k : Key) (ex : Nat) (msg : Bytes) : Option Bytes :=
  let message := if msg.length < k.size then msg ++ List.replicate (k.size - msg.length) 0 else msg
  rawEncrypt k ex (message.take k.size)

/-- Body of `pub_decrypt` (eni_crypto.cpp 88-99) and `priv_decrypt` (117-128): the buffer of `size` bytes is used as a C string; without a NUL
in it the constructor of `std::string` reads behind it. Simplified: the length of the message is passed as it is, which holds below 2^31 bytes; longer
messages are `decryptLen` in Model/CryptoLen.lean. -/
def decryptWith (k : Key) (ex : Nat) (msg : Bytes) : Res (Option Bytes) :=
  match rawDecrypt k ex msg with
  | none => .ok none
  | some buf => if 0 ∈ buf then .ok (some (cstr buf)) else .ub .outOfBounds

def pubEncrypt (k : Key) (msg : Bytes) : Option Bytes := encryptWith k k.e msg
def privEncrypt (k : Key) (msg : Bytes) : Option Bytes := encryptWith k k.d msg
def pubDecrypt (k : Key) (msg : Bytes) : Res (Option Bytes) := decryptWith k k.e msg
def privDecrypt (k : Key) (msg : Bytes) : Res (Option Bytes) := decryptWith k k.d msg

/-- Members of `RSAEncrypt` and `RSADecrypt` (eni_crypto.h 60-61, 83-84). -/
structure St where
  key : Option Key
  msg : Bytes

/-- An outcome other than a value, as outcome of a hook. -/
def fail {α β : Type} : Res α → Res β
  | .ok _ => .ub .badUnion
  | .throw e => .throw e
  | .ub u => .ub u
  | .diverge => .diverge
  | .exit c => .exit c

/-- `RSAEncrypt` (eni_crypto.cpp 133-157). `pem` is `create_pubkey` (48-55), which sees the text up to a NUL. -/
def encryptOp (pem : Bytes → Option Key) : Base.Hooks St where
  init := ⟨none, []⟩
  parse := fun o vs =>
    match Value.argAt vs 0 >>= Value.toStr with
    | .ok t =>
      match pem (cstr t) with
      | none => ({ o with key := none }, .ok false)
      | some k =>
        match Value.argAt vs 1 >>= Value.toStr with
        | .ok m => (⟨some k, m⟩, .ok true)
        | r => ({ o with key := some k }, fail r)
    | r => (o, fail r)
  gas := fun o =>
    match o.key with
    | some k => .ok (k.size * 10)
    | none => .ub .nullDeref
  run := fun o ret =>
    match o.key with
    | some k =>
      match pubEncrypt k o.msg with
      | none => (o, ret, .ok false)
      | some c => (o, ret ++ [.str (str2hex c)], .ok true)
    | none => (o, ret, .ub .nullDeref)

/-- `RSADecrypt` (eni_crypto.cpp 162-185). `pem` is `create_privkey` (57-64). `hex2str` leaves `m_Msg` alone if it returns false. -/
def decryptOp (pem : Bytes → Option Key) : Base.Hooks St where
  init := ⟨none, []⟩
  parse := fun o vs =>
    match Value.argAt vs 0 >>= Value.toStr with
    | .ok t =>
      match pem (cstr t) with
      | none => ({ o with key := none }, .ok false)
      | some k =>
        match Value.argAt vs 1 >>= Value.toStr with
        | .ok h =>
          match hex2str h with
          | .ok none => ({ o with key := some k }, .ok false)
          | .ok (some m) => (⟨some k, m⟩, .ok true)
          | r => ({ o with key := some k }, fail r)
        | r => ({ o with key := some k }, fail r)
    | r => (o, fail r)
  gas := fun o =>
    match o.key with
    | some k => .ok (k.size * 10)
    | none => .ub .nullDeref
  run := fun o ret =>
    match o.key with
    | some k =>
      match privDecrypt k o.msg with
      | .ok none => (o, ret, .ok false)
      | .ok (some m) => (o, ret ++ [.str m], .ok true)
      | r => (o, ret, fail r)
    | none => (o, ret, .ub .nullDeref)

end Eni.Crypto
