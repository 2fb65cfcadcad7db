import Verif.Proofs.CryptoRes
import Verif.Props.EniBase
import Verif.Props.JsonTool
/-!
# C87: the RSA functions and operations release what they acquire
-/
namespace Eni.Props
open Spec Base Json Crypto

/-! ### Programs that use the functions -/

/-- C87 is false, for every program: each key that is read leaves a BIO behind and each encryption or decryption a buffer. -/
theorem C87_functions_false (pub prv : Bytes → Option Key) (cs : List Cmd) (w : Crypto.World) (h : execAll pub prv Crypto.World.empty cs = .ok w) :
    w.led.bios = (cs.filter opensBio).length ∧ w.led.bufs.length = (cs.filter encryptsOrDecrypts).length := by
  have := execAll_counts cs h
  simpa [Crypto.World.empty, Ledger.empty] using this

/-- C87, the part that holds: keys. A program that destroys each key before it reuses the variable, uses only variables that hold a key and
does not copy pointers never releases a key twice and never uses a released one; its live keys are those that its variables hold, each in
one variable. (What remains is the decryption of a full block, C48.) If all of them are destroyed in the end, none is left. -/
theorem C87_keys_partial (pub prv : Bytes → Option Key) (cs : List Cmd) (hc : Careful pub prv (fun _ => false) cs) :
    ((∃ w, execAll pub prv Crypto.World.empty cs = .ok w) ∨
      (execAll pub prv Crypto.World.empty cs = .ub .outOfBounds ∧ ∃ c ∈ cs, encryptsOrDecrypts c = true)) ∧
    ∀ w, execAll pub prv Crypto.World.empty cs = .ok w →
      (∀ x, (w.vars x).isSome = holdsAll pub prv (fun _ => false) cs x) ∧
      (∀ i, i ∈ w.led.keys ↔ ∃ x k, w.vars x = some (i, k)) ∧
      (∀ x y i k k', w.vars x = some (i, k) → w.vars y = some (i, k') → x = y) ∧ w.led.keys.Nodup ∧
      ((∀ x, holdsAll pub prv (fun _ => false) cs x = false) → w.led.keys = []) := by
  rcases Owned.empty.execAll cs hc with ⟨w, h1, h2⟩ | ⟨h1, h2⟩
  · refine ⟨.inl ⟨w, h1⟩, ?_⟩
    intro w' h
    rw [h1] at h
    cases h
    refine ⟨h2.held, ?_, ?_, h2.nodup, ?_⟩
    · intro i
      constructor
      · exact h2.all i
      · rintro ⟨x, k, hx⟩
        exact h2.live x _ hx
    · intro x y i k k' hx hy
      exact h2.inj x y _ _ hx hy rfl
    · intro hall
      apply List.eq_nil_iff_forall_not_mem.mpr
      intro i hi
      obtain ⟨x, k, hx⟩ := h2.all i hi
      have := h2.held x
      rw [hx, hall x] at this
      cases this
  · exact ⟨.inr ⟨h1, h2⟩, fun w h => by rw [h1] at h; cases h⟩

/-- a key is read, used and destroyed -/
example (m : Bytes) := C87_keys_partial (fun _ => some ⟨3233, 17, 413⟩) (fun _ => none) [.create false 1 true [80], .crypt .pubEncrypt 1 m, .destroy 1]
  (by simp [Careful, holds])

/-- Assigning to a variable that holds a key loses the key. -/
theorem C87_overwrite_false (pub prv : Bytes → Option Key) (t : Bytes) (k : Key) (hk : pub (cstr t) = some k) :
    ∃ w, execAll pub prv Crypto.World.empty [.create false 0 true t, .create false 0 true t, .destroy 0] = .ok w ∧ (∀ x, w.vars x = none) ∧
      w.led.keys = [0] := by
  refine ⟨⟨setVar (setVar (setVar (fun _ => none) 0 (some (0, k))) 0 (some (1, k))) 0 none, ⟨2, [0], 2, []⟩⟩, ?_, ?_, rfl⟩
  · simp [execAll, exec, create, Crypto.World.empty, Ledger.empty, hk, destroy, setVar]
  · intro x
    by_cases hx : x = 0 <;> simp [setVar, hx]

/-- Destroying a copy of the pointer releases the key twice: `destroy` resets only the pointer it is given. -/
theorem C87_copy_false (pub prv : Bytes → Option Key) (t : Bytes) (k : Key) (hk : pub (cstr t) = some k) :
    execAll pub prv Crypto.World.empty [.create false 0 true t, .copy 1 0, .destroy 0, .destroy 1] = .ub .doubleFree := by
  simp [execAll, exec, create, Crypto.World.empty, Ledger.empty, hk, destroy, setVar]

/-- The program of test/RsaTest.cpp is careful and destroys its keys; it leaves two BIOs and two buffers. -/
example (m c p q : Bytes) (pub prv : Bytes → Option Key) (k : Key) (hp : pub (cstr p) = some k) (hq : prv (cstr q) = some k) :
    let cs : List Cmd := [.create true 0 true q, .create false 1 true p, .crypt .pubEncrypt 1 m, .crypt .privDecrypt 0 c, .destroy 1, .destroy 0]
    Careful pub prv (fun _ => false) cs ∧ (∀ x, holdsAll pub prv (fun _ => false) cs x = false) ∧ (cs.filter opensBio).length = 2 ∧
      (cs.filter encryptsOrDecrypts).length = 2 := by
  refine ⟨by simp [Careful, holds, hp, hq], ?_, rfl, rfl⟩
  intro x
  by_cases h0 : x = 0 <;> by_cases h1 : x = 1 <;> simp [holdsAll, holds, h0, h1]

/-! ### The operations -/

/-- What the process still holds after the destructor, for every sequence of calls on an `rsa_encrypt` object whose first argument is a
string: a BIO for each invocation of the parse hook, a buffer for each invocation of the run hook, and all keys but the last. -/
theorem C87_encrypt_false (pem : Bytes → Option Key) (L : Layout) (s : Bytes) (o : Obj StR) (h : construct (encryptOpR pem) L s = .ok o)
    (vs : List Value) (ha : o.args = .arr vs) (t : Bytes) (h0 : vs[0]? = some (.str t)) (cs : List Call)
    (hall : ∀ r ∈ (session (encryptOpR pem) o cs).2, goesOn r = true) :
    ∃ l, Crypto.finish (session (encryptOpR pem) o cs).1 = .ok l ∧
      l.bios = ((session (encryptOpR pem) o cs).1.calls.filter isParse).length ∧
      l.bufs.length = ((session (encryptOpR pem) o cs).1.calls.filter (· = .run)).length ∧ (∀ b ∈ l.bufs, ∃ k, pem (cstr t) = some k ∧ b = k.size) ∧
      l.keys.length = if (pem (cstr t)).isSome then ((session (encryptOpR pem) o cs).1.calls.filter isParse).length - 1 else 0 := by
  obtain ⟨root, _, rfl⟩ := construct_ok h
  obtain ⟨l, h1, h2, h3, h4⟩ := (encrypt_acc h0 cs _ ha rfl rfl rfl rfl hall).finish
  exact ⟨l, h1, h2, h3.1, h3.2, h4⟩

/-- ... and for `rsa_decrypt`. -/
theorem C87_decrypt_false (pem : Bytes → Option Key) (L : Layout) (s : Bytes) (o : Obj StR) (h : construct (decryptOpR pem) L s = .ok o)
    (vs : List Value) (ha : o.args = .arr vs) (t : Bytes) (h0 : vs[0]? = some (.str t)) (cs : List Call)
    (hall : ∀ r ∈ (session (decryptOpR pem) o cs).2, goesOn r = true) :
    ∃ l, Crypto.finish (session (decryptOpR pem) o cs).1 = .ok l ∧
      l.bios = ((session (decryptOpR pem) o cs).1.calls.filter isParse).length ∧
      l.bufs.length = ((session (decryptOpR pem) o cs).1.calls.filter (· = .run)).length ∧ (∀ b ∈ l.bufs, ∃ k, pem (cstr t) = some k ∧ b = k.size) ∧
      l.keys.length = if (pem (cstr t)).isSome then ((session (decryptOpR pem) o cs).1.calls.filter isParse).length - 1 else 0 := by
  obtain ⟨root, _, rfl⟩ := construct_ok h
  obtain ⟨l, h1, h2, h3, h4⟩ := (decrypt_acc h0 cs _ ha rfl rfl rfl rfl hall).finish
  exact ⟨l, h1, h2, h3.1, h3.2, h4⟩

/-- One call of `rsa_encrypt_run` with a key and a message: a BIO and a buffer of the size of the modulus stay behind, whether or not the
encryption succeeds; the key is released. -/
theorem C87_run_false (pem : Bytes → Option Key) (L : Layout) (s : Bytes) (o : Obj StR) (h : construct (encryptOpR pem) L s = .ok o)
    (t m : Bytes) (more : List Value) (ha : o.args = .arr (.str t :: .str m :: more)) (k : Key) (hk : pem (cstr t) = some k) :
    Crypto.finish (session (encryptOpR pem) o [.start]).1 = .ok ⟨1, [], 1, [k.size]⟩ := by
  obtain ⟨root, _, rfl⟩ := construct_ok h
  have ha' : copyTop root = .arr (.str t :: .str m :: more) := ha
  have hc : check (encryptOpR pem) ⟨false, false, copyTop root, .arr [], (encryptOpR pem).init, []⟩ =
      (⟨true, true, copyTop root, .arr [], ⟨some (0, k), m, ⟨1, [0], 1, []⟩⟩, [.parse (.ok true)]⟩, .ok true) := by
    rw [check_ok (b := true) (st := ⟨some (0, k), m, ⟨1, [0], 1, []⟩⟩) rfl (by rw [ha']; rfl)]
    · rfl
    · simp [encryptOpR, Value.argAt, Value.toStr, create, hk, Ledger.empty]
  simp only [session, call, start, hc, Value.toArray]
  simp only [encryptOpR, crypt, List.mem_singleton, if_true, Res.ok_bind]
  cases pubEncrypt k m <;> simp [goesOn, Crypto.finish, destroy]

/-- Without the second argument `parse` throws after it has read the key, and each further call reads it again: of the keys of n calls all
but the last are lost. -/
theorem C87_throw_false (pem : Bytes → Option Key) (L : Layout) (s : Bytes) (o : Obj StR) (h : construct (encryptOpR pem) L s = .ok o)
    (t : Bytes) (ha : o.args = .arr [.str t]) (k : Key) (hk : pem (cstr t) = some k) (cs : List Call) :
    ∃ l, Crypto.finish (session (encryptOpR pem) o cs).1 = .ok l ∧ l.keys.length = cs.length - 1 ∧ l.bios = cs.length ∧ l.bufs = [] := by
  have hthrow : ∀ (cs : List Call) (o : Obj StR), o.args = .arr [.str t] → o.parsed = false →
      (session (encryptOpR pem) o cs).1.calls = o.calls ++ List.replicate cs.length (.parse (.throw .invalidVectorIndex)) ∧
      (session (encryptOpR pem) o cs).2 = List.replicate cs.length (.throw .invalidVectorIndex) := by
    intro cs
    induction cs with
    | nil => intro o _ _; simp [session]
    | cons c cs ih =>
      intro o h1 h2
      have hp : (encryptOpR pem).parse o.st [.str t] = (((encryptOpR pem).parse o.st [.str t]).1, .throw .invalidVectorIndex) := by
        refine Prod.ext rfl ?_
        simp [encryptOpR, Value.argAt, Value.toStr, create, hk, fail]
      have hck := check_fail (H := encryptOpR pem) h2 (by rw [h1]; rfl) hp (by simp)
      have hcall : call (encryptOpR pem) o c = ({ o with st := ((encryptOpR pem).parse o.st [.str t]).1, calls := o.calls ++ [.parse (.throw .invalidVectorIndex)] },
          .throw .invalidVectorIndex) := by
        cases c <;> simp [call, getGas, start, hck]
      obtain ⟨e1, e2⟩ := ih { o with st := ((encryptOpR pem).parse o.st [.str t]).1, calls := o.calls ++ [.parse (.throw .invalidVectorIndex)] } h1 h2
      simp only [session, hcall, goesOn, if_true, List.length_cons, List.replicate_succ]
      exact ⟨by rw [e1]; simp, by rw [e2]⟩
  obtain ⟨e1, e2⟩ := hthrow cs o ha (by obtain ⟨_, _, rfl⟩ := construct_ok h; rfl)
  obtain ⟨l, h1, h2, h3, _, h5⟩ := C87_encrypt_false pem L s o h [.str t] ha t rfl cs (by
    rw [e2]
    intro r hr
    rw [(List.mem_replicate.mp hr).2]
    rfl)
  have hcalls : o.calls = [] := by obtain ⟨_, _, rfl⟩ := construct_ok h; rfl
  rw [e1, hcalls] at h2 h3 h5
  refine ⟨l, h1, ?_, ?_, ?_⟩
  · rw [h5]; simp [hk, List.filter_replicate, isParse]
  · rw [h2]; simp [List.filter_replicate, isParse]
  · rw [← List.length_eq_zero_iff, h3]; simp

/-- The bookkeeping changes no answer: the operations answer every sequence of calls as those of C48, C55 and C64 do. -/
theorem C87_answers (pem : Bytes → Option Key) (L : Layout) (s : Bytes) (cs : List Call) :
    (∀ o o', construct (encryptOpR pem) L s = .ok o → construct (encryptOp pem) L s = .ok o' →
      (session (encryptOpR pem) o cs).2 = (session (encryptOp pem) o' cs).2) ∧
    (∀ o o', construct (decryptOpR pem) L s = .ok o → construct (decryptOp pem) L s = .ok o' →
      (session (decryptOpR pem) o cs).2 = (session (decryptOp pem) o' cs).2) := by
  constructor
  · intro o o' h h'
    obtain ⟨r, e, rfl⟩ := construct_ok h
    obtain ⟨r', e', rfl⟩ := construct_ok h'
    rw [e] at e'
    cases e'
    exact encrypt_forget pem cs _ _ ⟨rfl, rfl, rfl, rfl, rfl, rfl, rfl, by simp [encryptOpR]⟩
  · intro o o' h h'
    obtain ⟨r, e, rfl⟩ := construct_ok h
    obtain ⟨r', e', rfl⟩ := construct_ok h'
    rw [e] at e'
    cases e'
    exact decrypt_forget pem cs _ _ ⟨rfl, rfl, rfl, rfl, rfl, rfl, rfl, by simp [decryptOpR]⟩

/-- An object with a key and a message can be constructed, from their notation as an array. -/
example (pem : Bytes → Option Key) (L : Layout) (t m : Bytes) :
    ∃ o, construct (encryptOpR pem) L (cstr (Value.print (.arr [.str t, .str m]))) = .ok o ∧ o.args = .arr [.str t, .str m] := by
  have hp := parse_flat L [.str t, .str m] (by simp [FlatArg])
  exact ⟨_, construct_of hp, rfl⟩

example : ∃ (pem : Bytes → Option Key) (k : Key), pem (cstr [1]) = some k ∧ k.size = 2 :=
  ⟨fun _ => some ⟨3233, 17, 413⟩, _, rfl, by decide⟩

end Eni.Props
