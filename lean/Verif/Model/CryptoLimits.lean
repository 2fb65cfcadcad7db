import Verif.Model.Crypto
/-!
# Keys that openssl can read but refuses to use

Model/Crypto treats every key alike. Which keys `RSA_public_encrypt` and `RSA_private_decrypt` refuse (with -1) depends on the version of openssl, which is
not part of /repo, so it is a parameter here.
-/
namespace Eni.Crypto

/-- `RSAEncrypt` (eni_crypto.cpp 133-157): if openssl refuses the key in line 79, `pub_encrypt` returns false (82-83) and so does `run` (151-152). -/
def encryptOpLim (refuse : Key → Bool) (pem : Bytes → Option Key) : Base.Hooks St :=
  { encryptOp pem with
    run := fun o ret =>
      match o.key with
      | some k => if refuse k then (o, ret, .ok false) else (encryptOp pem).run o ret
      | none => (o, ret, .ub .nullDeref) }

/-- `RSADecrypt` (eni_crypto.cpp 162-185): the same in lines 120, 123-124 and 181-182. -/
def decryptOpLim (refuse : Key → Bool) (pem : Bytes → Option Key) : Base.Hooks St :=
  { decryptOp pem with
    run := fun o ret =>
      match o.key with
      | some k => if refuse k then (o, ret, .ok false) else (decryptOp pem).run o ret
      | none => (o, ret, .ub .nullDeref) }

end Eni.Crypto
