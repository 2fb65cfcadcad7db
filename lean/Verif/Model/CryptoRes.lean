import Verif.Model.Crypto
/-!
# What the RSA functions and operations acquire and release (tools/eni_crypto)

The same functions as in Model/Crypto, with a ledger of what is held: `RSA` objects (by identity), `BIO` objects (by number) and buffers
obtained with `new[]` (by size). `BIO_new_mem_buf` may refuse; `new[]` succeeds (it would throw). Memory that openssl itself manages inside
an object is part of that object.
-/
namespace Eni.Crypto

/-- What is held. -/
structure Ledger where
  next : Nat
  keys : List Nat
  bios : Nat
  bufs : List Nat
  deriving DecidableEq, Repr

def Ledger.empty : Ledger := ⟨0, [], 0, []⟩

/-- `RSA*` other than null: which object, and what is in it. -/
abbrev Ptr := Nat × Key

/-- `create_pubkey`, `create_privkey` (eni_crypto.cpp 48-64): `pem` is `PEM_read_bio_RSA_PUBKEY` or `PEM_read_bio_RSAPrivateKey`, `bio` the answer
of `BIO_new_mem_buf`. Nothing releases the BIO. -/
def create (pem : Bytes → Option Key) (bio : Bool) (l : Ledger) (t : Bytes) : Ledger × Option Ptr :=
  if bio then
    match pem (cstr t) with
    | none => ({ l with bios := l.bios + 1 }, none)
    | some k => ({ l with bios := l.bios + 1, next := l.next + 1, keys := l.next :: l.keys }, some (l.next, k))
  else (l, none)

/-- `destroy` (eni_crypto.cpp 66-70): `RSA_free` accepts null; the caller's pointer is null afterwards. -/
def destroy (l : Ledger) : Option Ptr → Res Ledger
  | none => .ok l
  | some p => if p.1 ∈ l.keys then .ok { l with keys := l.keys.erase p.1 } else .ub .doubleFree

/-- The four functions that encrypt or decrypt. -/
inductive Fn where
  | pubEncrypt
  | pubDecrypt
  | privEncrypt
  | privDecrypt
  deriving DecidableEq, Repr

/-- `pub_encrypt`, `pub_decrypt`, `priv_encrypt`, `priv_decrypt` (eni_crypto.cpp 72-128): a buffer of the size of the modulus is obtained in line
75, 90, 104 or 119; no path releases it. The argument is a reference, so it must refer to an object. -/
def crypt (f : Fn) (l : Ledger) (p : Option Ptr) (msg : Bytes) : Res (Ledger × Option Bytes) :=
  match p with
  | none => .ub .nullDeref
  | some (i, k) =>
    if i ∈ l.keys then do
      let l := { l with bufs := k.size :: l.bufs }
      let r ← match f with
        | .pubEncrypt => .ok (Crypto.pubEncrypt k msg)
        | .privEncrypt => .ok (Crypto.privEncrypt k msg)
        | .pubDecrypt => Crypto.pubDecrypt k msg
        | .privDecrypt => Crypto.privDecrypt k msg
      .ok (l, r)
    else .ub .useAfterFree

/-- A statement of a program that uses `eni_crypto::rsa` (as test/RsaTest.cpp 34-75 does): `x = create_...key(t)`, `destroy(x)`, a call of one of the
four functions with `*x`, and the copy of a pointer `y = x`. -/
inductive Cmd where
  | create (priv : Bool) (x : Nat) (bio : Bool) (t : Bytes)
  | destroy (x : Nat)
  | crypt (f : Fn) (x : Nat) (msg : Bytes)
  | copy (y x : Nat)
  deriving DecidableEq, Repr

/-- Variables of type `RSA*`, and what is held. -/
structure World where
  vars : Nat → Option Ptr
  led : Ledger

def World.empty : World := ⟨fun _ => none, .empty⟩

def setVar (v : Nat → Option Ptr) (x : Nat) (p : Option Ptr) : Nat → Option Ptr := fun y => if y = x then p else v y

/-- One statement; `pub` and `prv` read PEM texts. -/
def exec (pub prv : Bytes → Option Key) (w : World) : Cmd → Res World
  | .create priv x bio t =>
    match create (if priv then prv else pub) bio w.led t with
    | (l, p) => .ok ⟨setVar w.vars x p, l⟩
  | .destroy x => do
    let l ← destroy w.led (w.vars x)
    .ok ⟨setVar w.vars x none, l⟩
  | .crypt f x msg => do
    let (l, _) ← crypt f w.led (w.vars x) msg
    .ok { w with led := l }
  | .copy y x => .ok { w with vars := setVar w.vars y (w.vars x) }

def execAll (pub prv : Bytes → Option Key) (w : World) : List Cmd → Res World
  | [] => .ok w
  | c :: cs => do
    let w ← exec pub prv w c
    execAll pub prv w cs

/-- Members of `RSAEncrypt`, `RSADecrypt` (eni_crypto.h 60-61, 83-84) and what the process holds on behalf of the object. -/
structure StR where
  key : Option Ptr
  msg : Bytes
  led : Ledger

/-- `RSAEncrypt` (eni_crypto.cpp 133-157) with the ledger: `m_Key = create_pubkey(...)` forgets the former value of `m_Key`. -/
def encryptOpR (pem : Bytes → Option Key) : Base.Hooks StR where
  init := ⟨none, [], .empty⟩
  parse := fun o vs =>
    match Value.argAt vs 0 >>= Value.toStr with
    | .ok t =>
      match create pem true o.led t with
      | (l, none) => (⟨none, o.msg, l⟩, .ok false)
      | (l, some p) =>
        match Value.argAt vs 1 >>= Value.toStr with
        | .ok m => (⟨some p, m, l⟩, .ok true)
        | r => (⟨some p, o.msg, l⟩, fail r)
    | r => (o, fail r)
  gas := fun o =>
    match o.key with
    | some (_, k) => .ok (k.size * 10)
    | none => .ub .nullDeref
  run := fun o ret =>
    match crypt .pubEncrypt o.led o.key o.msg with
    | .ok (l, none) => ({ o with led := l }, ret, .ok false)
    | .ok (l, some c) => ({ o with led := l }, ret ++ [.str (str2hex c)], .ok true)
    | r => (o, ret, fail r)

/-- `RSADecrypt` (eni_crypto.cpp 162-185) with the ledger. -/
def decryptOpR (pem : Bytes → Option Key) : Base.Hooks StR where
  init := ⟨none, [], .empty⟩
  parse := fun o vs =>
    match Value.argAt vs 0 >>= Value.toStr with
    | .ok t =>
      match create pem true o.led t with
      | (l, none) => (⟨none, o.msg, l⟩, .ok false)
      | (l, some p) =>
        match Value.argAt vs 1 >>= Value.toStr with
        | .ok h =>
          match hex2str h with
          | .ok none => (⟨some p, o.msg, l⟩, .ok false)
          | .ok (some m) => (⟨some p, m, l⟩, .ok true)
          | r => (⟨some p, o.msg, l⟩, fail r)
        | r => (⟨some p, o.msg, l⟩, fail r)
    | r => (o, fail r)
  gas := fun o =>
    match o.key with
    | some (_, k) => .ok (k.size * 10)
    | none => .ub .nullDeref
  run := fun o ret =>
    match crypt .privDecrypt o.led o.key o.msg with
    | .ok (l, none) => ({ o with led := l }, ret, .ok false)
    | .ok (l, some m) => ({ o with led := l }, ret ++ [.str m], .ok true)
    | r => (o, ret, fail r)

/-- `~RSAEncrypt`, `~RSADecrypt` (eni_crypto.h 50, 73). -/
def finish (o : Base.Obj StR) : Res Ledger := destroy o.st.led o.st.key

end Eni.Crypto
