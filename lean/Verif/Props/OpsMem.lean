import Verif.Proofs.OpsMem
import Verif.Props.Scrypt
import Verif.Props.Crypto
import Verif.Props.JsonTool
/-!
# The operations of /repo in memory: C99
-/
namespace Eni.Props
open Spec Owner Json

/-- C99 for `reverse`: whatever a process called before and whatever the argument text is (keys of at most 65535 bytes), `reverse_run` and `reverse_gas`
in memory give what `Reverse` gives on plain data. -/
theorem C99_reverse : SameInMemory reverseM Reverse.op := same_in_memory reverse_same

/-- C99 for `scrypt`. -/
theorem C99_scrypt (A : Sha) (E : Scrypt.Env) : SameInMemory (scryptM A E) (Scrypt.op A E) := same_in_memory (scrypt_same A E)

/-- C99 for `rsa_encrypt`. -/
theorem C99_encrypt (pem : Bytes → Option Crypto.Key) : SameInMemory (encryptM pem) (Crypto.encryptOp pem) := same_in_memory (encrypt_same pem)

/-- C99 for `rsa_decrypt`. -/
theorem C99_decrypt (pem : Bytes → Option Crypto.Key) : SameInMemory (decryptM pem) (Crypto.decryptOp pem) := same_in_memory (decrypt_same pem)

/-- C99 for `json`. -/
theorem C99_json (E : JsonTool.Env) : SameInMemory (jsonM E) (JsonTool.op E) := same_in_memory (json_same E)

/-- C99, which texts: all of at most 65535 bytes, and every text of a value with short keys. -/
theorem C99_texts : (∀ s, (cstr s).length ≤ 65535 → ShortKeyText s) ∧
    ∀ {w t r j}, WS w → JText t j → ((∃ z, j = .int z) → NoDigit r) → 0 ∉ w ++ (t ++ r) → ShortKeys j → ShortKeyText (w ++ (t ++ r)) := by
  refine ⟨fun s h => keysFit_of_short h, ?_⟩
  intro w t r j hw ht hr h0 hk w' t' r' j' e hw' ht'
  rw [cstr_of_notMem h0] at e
  by_cases hj : ∃ z, j' = .int z
  · obtain ⟨z, rfl⟩ := hj
    exact .int
  · obtain ⟨rfl, _⟩ := C24_unambiguous hw hw' ht ht' hr (fun h => absurd h hj) e
    exact hk

example : ShortKeyText [91, 34, 120, 34, 93] := C99_texts.1 _ (by decide)

/-- `reverse_run(["x"])` after any calls -/
example (cs : List Call) (l : Left) (os : List Out) (h : session (fun _ => true) ⟨100, 0, 50⟩ Left.init cs = .ok (l, os)) :=
  C99_reverse (fun _ => true) ⟨100, 0, 50⟩ cs l os [91, 34, 120, 34, 93] h (by decide) (C99_texts.1 _ (by decide))

theorem of_outcome {α : Type} {x : Res (Left × Ret α)} {a : α} (h : outcome x = .ok a) : ∃ l, x = .ok (l, .value a) := by
  unfold outcome at h
  cases x with
  | ok y =>
    obtain ⟨l, r⟩ := y
    cases r with
    | value b =>
      simp only [Res.ok_bind, raise, id, Res.ok.injEq] at h
      exact ⟨l, h ▸ rfl⟩
    | thrown e => simp [raise] at h
  | _ => simp [raise] at h

theorem session_snoc {grow : Nat → Bool} {L : Layout} {c : Call} {o : Out} {l1 l2 : Left} (hc : callAt grow L l1 c = .ok (l2, o)) :
    ∀ (cs : List Call) {l : Left} {os : List Out}, session grow L l cs = .ok (l1, os) → session grow L l (cs ++ [c]) = .ok (l2, os ++ [o]) := by
  intro cs
  induction cs with
  | nil =>
    intro l os h
    simp only [session, Res.ok.injEq, Prod.mk.injEq] at h
    obtain ⟨rfl, rfl⟩ := h
    simp [session, hc]
  | cons c' cs ih =>
    intro l os h
    simp only [session] at h
    obtain ⟨⟨l', o'⟩, e1, h⟩ := Res.bind_eq_ok.mp h
    obtain ⟨⟨l'', os'⟩, e2, h⟩ := Res.bind_eq_ok.mp h
    simp only [Res.ok.injEq, Prod.mk.injEq] at h
    obtain ⟨rfl, rfl⟩ := h
    simp [session, e1, ih e2]

/-- C99, scrypt after any calls: the text returned is the hash of the bytes that the argument denotes, the gas is ten for each byte. -/
theorem C99_scrypt_text (A : Sha) (E : Scrypt.Env) (grow : Nat → Bool) (L : Layout) (cs : List Call) {l : Left} {os : List Out}
    (hc : session grow L Left.init cs = .ok (l, os)) {w t r : Bytes} (s : Bytes) (more : List Bytes) (hs : HexArg s) (hw : WS w)
    (ht : JText t (.arr ((s :: more).map .str))) (h0 : 0 ∉ w ++ (t ++ r)) (hlen : (w ++ (t ++ r)).length ≤ 1073643498) :
    ∃ d x l' l'', denotes s d ∧ scryptText A d x ∧ runAt grow L (scryptM A E) l (w ++ (t ++ r)) = .ok (l', .value (some ([91, 34] ++ x ++ [34, 93]))) ∧
      gasAt grow L (scryptM A E) l (w ++ (t ++ r)) = .ok (l'', .value (10 * d.length)) := by
  obtain ⟨d, x, h1, h2, h3, h4⟩ := C44_entry A E L s more hs hw ht h0
  have hk : ShortKeyText (w ++ (t ++ r)) := C99_texts.2 hw ht (by rintro ⟨z, hz⟩; cases hz) h0 (.arr (by
    simp only [List.mem_map]
    rintro j ⟨a, _, rfl⟩
    exact .str))
  obtain ⟨g1, g2⟩ := C99_scrypt A E grow L cs l os _ hc (by rwa [cstr_of_notMem h0]) hk
  rw [h3] at g1
  rw [h4] at g2
  obtain ⟨l', e1⟩ := of_outcome g1
  obtain ⟨l'', e2⟩ := of_outcome g2
  exact ⟨d, x, l', l'', h1, h2, e1, e2⟩

theorem printStr_length (s : Bytes) : (Value.printStr s).length ≤ 6 * s.length + 2 := by
  have h : ∀ s : Bytes, (s.flatMap Value.printChar).length ≤ 6 * s.length := by
    intro s
    induction s with
    | nil => simp
    | cons c s ih =>
      have : (Value.printChar c).length ≤ 6 := by
        unfold Value.printChar
        split
        · simp
        · split <;> simp
      simp only [List.flatMap_cons, List.length_append, List.length_cons]
      omega
  have := h s
  simp only [Value.printStr, List.length_cons, List.length_append, List.length_nil]
  omega

theorem twoArgs_fit (a b : Bytes) (ha : a.length ≤ 10000000) (hb : b.length ≤ 20000000) :
    (cstr (twoArgs a b)).length ≤ 1073643498 ∧ ShortKeyText (twoArgs a b) := by
  obtain ⟨ht, h0⟩ := print_strs [a, b]
  have h0 : 0 ∉ twoArgs a b := h0
  refine ⟨?_, ?_⟩
  · rw [cstr_of_notMem h0]
    have h1 := printStr_length a
    have h2 := printStr_length b
    simp [twoArgs, Value.print, Value.printElems]
    omega
  · have := C99_texts.2 (w := []) (r := []) (by simp [WS]) ht (by rintro ⟨z, hz⟩; cases hz) (by simpa [twoArgs] using h0) (.arr (by
      simp only [List.mem_map]
      rintro j ⟨a, _, rfl⟩
      exact .str))
    simpa [twoArgs] using this

/-- C99, a process encrypts a message and later decrypts it: with the restrictions of C48, the second call returns the message, whatever the process called
before. -/
theorem C99_rsa (pub priv : Bytes → Option Crypto.Key) (grow : Nat → Bool) (L : Layout) (cs : List Call) {l : Left} {os : List Out}
    (hc : session grow L Left.init cs = .ok (l, os)) (tpub tpriv : Bytes) (k kp : Crypto.Key) (hpub : pub (cstr tpub) = some kp)
    (hpriv : priv (cstr tpriv) = some k) (hn1 : kp.n = k.n) (he1 : kp.e = k.e) (hk : Rsa.KeyPair k.n k.e k.d) (m : Bytes) (hm : m.length < k.size)
    (h0 : 0 ∉ m) (hn : Crypto.toNum (m ++ List.replicate (k.size - m.length) 0) < k.n)
    (ha : tpub.length ≤ 10000000) (hb : tpriv.length ≤ 10000000) (hsz : k.size ≤ 10000000) :
    ∃ hex l', session grow L Left.init (cs ++ [⟨_, encryptM pub, false, twoArgs tpub m⟩, ⟨_, decryptM priv, false, twoArgs tpriv hex⟩]) =
      .ok (l', os ++ [.text (.value (some (Value.print (.arr [.str hex])))), .text (.value (some (Value.print (.arr [.str m]))))]) := by
  obtain ⟨hex, h1, h2, h3, _, _⟩ := C64_entry_partial pub priv L L tpub tpriv k kp hpub hpriv hn1 he1 hk m hm h0 hn
  obtain ⟨f1, f2⟩ := twoArgs_fit tpub m ha (by omega)
  obtain ⟨f3, f4⟩ := twoArgs_fit tpriv hex hb (by omega)
  have g1 := (C99_encrypt pub grow L cs l os _ hc f1 f2).1
  rw [h1] at g1
  obtain ⟨l1, e1⟩ := of_outcome g1
  have s1 := session_snoc (c := ⟨_, encryptM pub, false, twoArgs tpub m⟩) (o := .text (.value (some (Value.print (.arr [.str hex]))))) (l2 := l1)
    (by simp [callAt, e1]) cs hc
  have g2 := (C99_decrypt priv grow L _ l1 _ _ s1 f3 f4).1
  rw [h3] at g2
  obtain ⟨l2, e2⟩ := of_outcome g2
  have s2 := session_snoc (c := ⟨_, decryptM priv, false, twoArgs tpriv hex⟩) (o := .text (.value (some (Value.print (.arr [.str m]))))) (l2 := l2)
    (by simp [callAt, e2]) _ s1
  exact ⟨hex, l2, by simpa using s2⟩

/-- The key of two bytes and the message `\x0c`, in a new process. -/
example := C99_rsa (fun _ => some smallKey) (fun _ => some smallKey) (fun _ => true) ⟨100, 0, 50⟩ [] rfl [80] [81] smallKey smallKey rfl rfl rfl rfl
  smallKey_pair [12] (by decide) (by decide) (by decide) (by decide) (by decide) (by decide)

example (A : Sha) (E : Scrypt.Env) := C99_scrypt_text A E (fun _ => true) ⟨100, 0, 50⟩ [] rfl (w := []) (r := []) [48, 70, 102] [] hexArg_0Ff.1 (by simp [WS])
  (print_strs [[48, 70, 102]]).1 (by simpa using (print_strs [[48, 70, 102]]).2) (by simp [Value.print, Value.printElems, Value.printStr, Value.printChar])

end Eni.Props
