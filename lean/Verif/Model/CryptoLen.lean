import Verif.Model.Crypto
/-!
# RSA decryption of messages of any length (tools/eni_crypto/eni_crypto.cpp)

`Crypto.decryptWith` takes the length of the message as it is. The code passes `pMsg.length()`, a `size_t`, for the parameter `int flen` of openssl.
-/
namespace Eni.Crypto

/-- Conversion of a `size_t` to `int`. -/
def toInt32 (n : Nat) : Int := if n % 4294967296 < 2147483648 then (n % 4294967296 : Nat) else ((n % 4294967296 : Nat) : Int) - 4294967296

/-- Body of `pub_decrypt` (eni_crypto.cpp 88-99) and `priv_decrypt` (117-128) with the conversion in lines 91 and 120: openssl reads the first `flen`
bytes. `neg` is what openssl does if it is given a negative length, which differs between its versions. -/
def decryptLen (neg : Res (Option Bytes)) (k : Key) (ex : Nat) (msg : Bytes) : Res (Option Bytes) :=
  let flen := toInt32 msg.length
  if flen < 0 then neg
  else
    match rawDecrypt k ex (msg.take flen.toNat) with
    | none => .ok none
    | some buf => if 0 ∈ buf then .ok (some (cstr buf)) else .ub .outOfBounds

def pubDecryptLen (neg : Res (Option Bytes)) (k : Key) (msg : Bytes) : Res (Option Bytes) := decryptLen neg k k.e msg
def privDecryptLen (neg : Res (Option Bytes)) (k : Key) (msg : Bytes) : Res (Option Bytes) := decryptLen neg k k.d msg

/-- Encrypts and decrypts what was put behind the ciphertext as well: `pubFirst` tells which of the two pairs of functions is used. -/
def tripWith (neg : Res (Option Bytes)) (k : Key) (pubFirst : Bool) (msg more : Bytes) : Res (Option Bytes) :=
  match (if pubFirst then pubEncrypt k msg else privEncrypt k msg) with
  | none => .ok none
  | some c => if pubFirst then privDecryptLen neg k (c ++ more) else pubDecryptLen neg k (c ++ more)

end Eni.Crypto
