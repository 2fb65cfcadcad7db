import Verif.Model.EniMem
import Verif.Model.Reverse
import Verif.Model.Scrypt
import Verif.Model.Crypto
import Verif.Model.JsonTool
/-!
# The operations of /repo as programs in memory

The hooks of the operations, written in the language of Model/EniMem: they read their arguments through pointers into the arguments in memory. What they
compute from them is shared with the models of the operations on plain data (Model/Scrypt, Model/Crypto, Model/JsonTool); what they acquire besides
(RSA keys, BIOs) is Model/CryptoRes. `Reverse` is `reverseM` in Model/EniMem.
-/
namespace Eni
namespace Owner

/-- What a run hook appends and returns if it computes at most one text. -/
def oneText : Res (Option Bytes) → List Sc × Res Bool
  | .ok (some t) => ([.str t], .ok true)
  | .ok none => ([], .ok false)
  | .throw e => ([], .throw e)
  | .ub u => ([], .ub u)
  | .diverge => ([], .diverge)
  | .exit c => ([], .exit c)

/-- `Scrypt` (eni_scrypt.cpp 13-61). -/
def scryptM (A : Sha) (E : Scrypt.Env) : OpM Bytes where
  init := []
  parse := .str [.elem 0] fun s => .done (.ok (s, if s.length > 160 then false else s.all Scrypt.isHex))
  gas := fun s => .ok ((s.length + 1) / 2 * 10)
  run := fun s => oneText (do
    let input ← Scrypt.unhex (if s.length % 2 ≠ 0 then 48 :: s else s) (List.replicate 80 0)
    let h ← Scrypt.core A input E.hash E.B E.X E.pad
    .ok (some (Scrypt.hexOut h)))

/-- `RSA_size(m_Key) * 10` (eni_crypto.cpp 142-146, 172-176). -/
def rsaGas (o : Crypto.St) : Res Nat :=
  match o.key with
  | some k => .ok (k.size * 10)
  | none => .ub .nullDeref

/-- `RSAEncrypt` (eni_crypto.cpp 133-157). The second argument is not looked at if the first is not a key. -/
def encryptM (pem : Bytes → Option Crypto.Key) : OpM Crypto.St where
  init := ⟨none, []⟩
  parse := .str [.elem 0] fun t =>
    match pem (cstr t) with
    | none => .done (.ok (⟨none, []⟩, false))
    | some k => .str [.elem 1] fun m => .done (.ok (⟨some k, m⟩, true))
  gas := rsaGas
  run := fun o =>
    match o.key with
    | some k =>
      match Crypto.pubEncrypt k o.msg with
      | some c => oneText (.ok (some (Crypto.str2hex c)))
      | none => oneText (.ok none)
    | none => oneText (.ub .nullDeref)

/-- `RSADecrypt` (eni_crypto.cpp 162-185). -/
def decryptM (pem : Bytes → Option Crypto.Key) : OpM Crypto.St where
  init := ⟨none, []⟩
  parse := .str [.elem 0] fun t =>
    match pem (cstr t) with
    | none => .done (.ok (⟨none, []⟩, false))
    | some k => .str [.elem 1] fun h => .done (do
      match ← Crypto.hex2str h with
      | some m => .ok (⟨some k, m⟩, true)
      | none => .ok (⟨some k, []⟩, false))
  gas := rsaGas
  run := fun o =>
    match o.key with
    | some k => oneText (Crypto.privDecrypt k o.msg)
    | none => oneText (.ub .nullDeref)

/-- A computed text as `m_Str`. -/
def setStr (r : Res Bytes) : Rd (Bytes × Bool) := .done (do
  let s ← r
  .ok (s, true))

/-- `JSON` (eni_json.cpp 103-138). -/
def jsonM (E : JsonTool.Env) : OpM Bytes where
  init := []
  parse :=
    .str [.elem 0] fun op => .str [.elem 1] fun data => .int [.elem 2] fun b => .int [.elem 3] fun e =>
      if op = JsonTool.nParseString then setStr (do
        let raw ← JsonTool.subString data (E.conv b) (E.conv e)
        JsonTool.parseString E.L raw)
      else if op = JsonTool.nParseArray then setStr (JsonTool.parseArray E data (E.conv b) (E.conv e))
      else if op = JsonTool.nArrayGet then .int [.elem 4] fun i => setStr (JsonTool.arrayGet E data (E.conv b) (E.conv e) (E.conv i))
      else if op = JsonTool.nObjectGet then .str [.elem 4] fun k => setStr (JsonTool.objectGet E data (E.conv b) (E.conv e) k)
      else .done (.ok ([], false))
  gas := fun s => .ok (s.length * 10)
  run := fun s => oneText (.ok (some s))

end Owner
end Eni
