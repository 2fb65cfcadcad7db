import Verif.Proofs.CharSign
import Verif.Props.Reverse
import Verif.Props.Crypto
/-!
# C113: results do not depend on whether plain `char` is signed

The nodes of a network must agree on every result, but `char` is signed on x86 and unsigned on ARM and POWER. `Plat.Ch` is the kind of `char`; the models of
Model/CharSign take it as an argument.
-/
namespace Eni.Props
open Spec Plat

/-- C113, the pieces of the code that look at the value of a `char` and agree for all bytes: the character tests of the scanner, the conversion of code
points, the printing of characters, and the digits of the scrypt operation for the characters it accepts. They are the ones in the other models. -/
theorem C113_scanner (ch : Ch) (c : UInt8) (n : Nat) :
    isDigit ch c = Json.isDigit c ∧ isPosDigit ch c = Json.isPosDigit c ∧ isHexCode ch c = Json.isHex c ∧ codeByte n = n.toUInt8 ∧
    printChar ch c = Value.printChar c ∧ (Scrypt.isHex c = true → nibble ch (Scrypt.tolower c) = Scrypt.nibble (Scrypt.tolower c)) :=
  ⟨isDigit_eq ch c, isPosDigit_eq ch c, isHexCode_eq ch c, codeByte_eq n, printChar_eq ch c, nibble_hex ch c⟩

/-- The two kinds do differ. -/
example : Ch.val .signed 200 = -56 ∧ Ch.val .unsigned 200 = 200 ∧ printChar .signed 200 = [200] ∧ printChar .unsigned 200 = [200] := by decide

/-- C113, the models for signed `char` are the other models: the hash functions, the parser, hexadecimal texts, the entry points and the operations. -/
theorem C113_signed {S : Type} (fn : Hasher.Fn) (s : Bytes) (v : UInt32) (L : Json.Layout) (H : Base.Hooks S) (A : Sha) (E : Scrypt.Env)
    (pem : Bytes → Option Crypto.Key) (J : JsonTool.Env) :
    (Returns .signed fn s v ↔ Hasher.Returns fn s v) ∧ sdbm .signed s = Hasher.sdbm s ∧ es .signed s = Hasher.es s ∧ parse .signed L s = Json.parse L s ∧
    hex2str .signed s = Crypto.hex2str s ∧ opGas .signed H L s = Base.opGas H L s ∧ opRun .signed H L s = Base.opRun H L s ∧
    scryptOp .signed A E = Scrypt.op A E ∧ decryptOp .signed pem = Crypto.decryptOp pem ∧ jsonOp .signed J = JsonTool.op J :=
  ⟨returns_signed fn s v, sdbm_signed s, es_signed s, parse_signed L s, hex2str_signed s, (entry_signed H L s).1, (entry_signed H L s).2, scryptOp_signed A E,
    decryptOp_signed pem, jsonOp_signed J⟩

/-- C113, hash functions: the same value for every ASCII string, and for `ES` the same outcome. -/
theorem C113_hashers_partial (c d : Ch) (fn : Hasher.Fn) (s : Bytes) (hs : Ascii s) :
    (∀ v, Returns c fn s v ↔ Returns d fn s v) ∧ sdbm c s = sdbm d s ∧ es c s = es d s := by
  refine ⟨fun v => ⟨returns_ascii c d fn hs, returns_ascii d c fn hs⟩, sdbm_ascii c d hs, ?_⟩
  unfold es
  rw [esLoop_ascii c d s _ hs]

example := C113_hashers_partial .signed .unsigned .bkdr [97, 98] (by simp [Ascii])

theorem loop_one (f : UInt32 → Hasher.Loc → UInt8 → Hasher.Loc) (c : UInt8) (st r : Hasher.Loc) :
    Hasher.Loop f [c] 0 st r ↔ r = f 0 st c := by
  constructor
  · intro h
    cases h with
    | done h => exact absurd (Nat.lt_succ_self 0) h
    | next _ hc h =>
      cases hc
      cases h with
      | done _ => rfl
      | next h => exact absurd h (Nat.lt_irrefl 1)
  · rintro rfl
    exact .next (Nat.lt_succ_self 0) rfl (.done (Nat.lt_irrefl 1))

/-- The hash of a string of one byte. -/
theorem returns_one (ch : Ch) (fn : Hasher.Fn) (c : UInt8) (v : UInt32) :
    Returns ch fn [c] v ↔ (round fn 0 (Hasher.start [c] fn) (toU32 (ch.val c))).h = v := by
  unfold Returns
  constructor
  · rintro ⟨r, h, hr⟩
    rw [loop_one] at h
    subst h
    exact hr
  · intro h
    exact ⟨_, (loop_one _ _ _ _).mpr rfl, h⟩

/-- C113 is false of all hash functions: every string of one byte from 128 on, a Latin-1 é for example, has two hashes, and for `ES` a defined one only where
`char` is unsigned. -/
theorem C113_hashers_false (fn : Hasher.Fn) (c : UInt8) (hc : 128 ≤ c) :
    (∃ v w, Returns .signed fn [c] v ∧ Returns .unsigned fn [c] w ∧ v ≠ w ∧ ¬ Returns .unsigned fn [c] v) ∧
    es .signed [c] = .ub .outOfBounds ∧ es .unsigned [c] = .ok 0 := by
  have h1 : ∀ c : UInt8, 128 ≤ c → (round fn 0 (Hasher.start [c] fn) (toU32 (Ch.val .signed c))).h ≠ (round fn 0 (Hasher.start [c] fn) (toU32 (Ch.val .unsigned c))).h := by
    cases fn <;> exact Scrypt.forall_byte (by decide +kernel)
  have h2 : ∀ c : UInt8, 128 ≤ c → es .signed [c] = .ub .outOfBounds ∧ es .unsigned [c] = .ok 0 := Scrypt.forall_byte (by decide +kernel)
  refine ⟨⟨_, _, (returns_one _ _ _ _).mpr rfl, (returns_one _ _ _ _).mpr rfl, h1 c hc, ?_⟩, h2 c hc⟩
  rw [returns_one]
  exact fun h => h1 c hc h.symm

example (fn : Hasher.Fn) := C113_hashers_false fn 233 (by decide)

/-- C113, reading: both programs accept the same texts; the values read are alike (keys below 65536 bytes), and if the keys are ASCII they are
identical, down to the order of members. -/
theorem C113_parse (c d : Ch) (L : Json.Layout) (s : Bytes) (hlen : s.length ≤ 1073643498) :
    (∃ w t r j v v', s = w ++ (t ++ r) ∧ WS w ∧ JText t j ∧ parse c L s = .ok ⟨true, v⟩ ∧ parse d L s = .ok ⟨true, v'⟩ ∧
      (ShortKeys j → Alike c d v v') ∧ (AsciiKeys j → v = v' ∧ Value.print v = Value.print v')) ∨
    (parse c L s = .ok ⟨false, .undef⟩ ∧ parse d L s = .ok ⟨false, .undef⟩) := by
  rcases parse_any c d L s hlen with ⟨w, t, r, j, v, v', h1, h2, h3, h4, h5, h6, h7, _⟩ | h
  · exact .inl ⟨w, t, r, j, v, v', h1, h2, h3, h4, h5, fun hk => (h6 hk).alike, fun hk => ⟨h7 hk, by rw [h7 hk]⟩⟩
  · exact .inr h

/-- `{"é":"1","i":"2"}` with a UTF-8 é. -/
def witness : Bytes := [123, 34, 195, 169, 34, 58, 34, 49, 34, 44, 34, 105, 34, 58, 34, 50, 34, 125]

/-- Both cases occur, and the values alike need not be identical. -/
example : (∃ v v', parse .signed ⟨0, 0, 0⟩ witness = .ok ⟨true, v⟩ ∧ parse .unsigned ⟨0, 0, 0⟩ witness = .ok ⟨true, v'⟩ ∧ Alike .signed .unsigned v v') ∧
    parse .unsigned ⟨0, 0, 0⟩ [123, 125, 125] = .ok ⟨true, .obj (SMap.copy (SMap.new 8))⟩ ∧ parse .unsigned ⟨0, 0, 0⟩ [33] = .ok ⟨false, .undef⟩ := by
  refine ⟨?_, rfl, rfl⟩
  rcases C113_parse .signed .unsigned ⟨0, 0, 0⟩ witness (by decide) with ⟨w, t, r, j, v, v', h1, h2, h3, h4, h5, h6, _⟩ | ⟨h, _⟩
  · exact ⟨v, v', h4, h5, h6 (shortArgs_of_length (by decide) w t r j h1 h2 h3)⟩
  · revert h
    rw [parse_signed]
    intro h
    have : (match Json.parse ⟨0, 0, 0⟩ witness with | .ok p => p.success | _ => false) = true := by decide +kernel
    rw [h] at this
    cases this

/-- The members in the order of iteration. -/
def order : Res Json.Parsed → Option (List (Bytes × Value))
  | .ok ⟨true, .obj m⟩ => some (SMap.bindings m)
  | _ => none

theorem print_of_order {r : Res Json.Parsed} {k k' s s' : Bytes} (h : order r = some [(k, .str s), (k', .str s')]) :
    (r >>= fun p => .ok (Value.print p.root)) =
      .ok ([123, 10] ++ (k ++ [58] ++ Value.printStr s ++ [44] ++ k' ++ [58] ++ Value.printStr s') ++ [10, 125]) := by
  unfold order at h
  split at h
  · rename_i m
    simp only [Option.some.injEq] at h
    simp only [Res.ok_bind, Json.print_obj, h]
    simp [Value.printMembers, Value.print]
  · cases h

/-- C113 is false of printing: reading and printing `{"é":"1","i":"2"}` gives `{i:"2",é:"1"}` where `char` is signed and `{é:"1",i:"2"}` where it is not
(in three lines). -/
theorem C113_print_false :
    (parse .signed ⟨0, 0, 0⟩ witness >>= fun p => .ok (Value.print p.root)) =
      .ok [123, 10, 105, 58, 34, 50, 34, 44, 195, 169, 58, 34, 49, 34, 10, 125] ∧
    (parse .unsigned ⟨0, 0, 0⟩ witness >>= fun p => .ok (Value.print p.root)) =
      .ok [123, 10, 195, 169, 58, 34, 49, 34, 44, 105, 58, 34, 50, 34, 10, 125] := by
  have h1 : order (parse .signed ⟨0, 0, 0⟩ witness) = some [([105], .str [50]), ([195, 169], .str [49])] := by rfl
  have h2 : order (parse .unsigned ⟨0, 0, 0⟩ witness) = some [([195, 169], .str [49]), ([105], .str [50])] := by rfl
  rw [print_of_order h1, print_of_order h2]
  exact ⟨by decide, by decide⟩

theorem cstr_length_le (s : Bytes) : (cstr s).length ≤ s.length := (List.takeWhile_sublist _).length_le

/-- C113, entry points: an operation that does not ask for the order of members has the same price and the same result. -/
theorem C113_entry {S : Type} (c d : Ch) (H : Ch → Base.Hooks S) (hH : TakesAlike c d H) (L : Json.Layout) (s : Bytes) (hlen : s.length ≤ 1073643498)
    (hs : ShortArgs (cstr s)) : opGas c (H c) L s = opGas d (H d) L s ∧ opRun c (H c) L s = opRun d (H d) L s := by
  obtain ⟨_, h2, h3⟩ := hH
  exact entry_eq c d L (cstr s) (Nat.le_trans (cstr_length_le s) hlen) hs (fun vs ws _ _ hl ha => ⟨h2 vs ws hl ha, fun st hp => h3 vs st hp⟩)

/-- C113, all texts below 65536 bytes have short keys only. -/
theorem C113_short (s : Bytes) (h : s.length < 65536) : ShortArgs (cstr s) :=
  shortArgs_of_length (Nat.lt_of_le_of_lt (cstr_length_le s) h)

example (c d : Ch) := C113_entry c d _ (takes_reverse c d) ⟨0, 0, 0⟩ (91 :: witness ++ [93]) (by decide) (C113_short _ (by decide))

/-- C113, the shipped operations `reverse`, `scrypt` and `rsa_encrypt`. -/
theorem C113_shipped (c d : Ch) (A : Sha) (E : Scrypt.Env) (pem : Bytes → Option Crypto.Key) (L : Json.Layout) (s : Bytes) (hlen : s.length ≤ 1073643498)
    (hs : ShortArgs (cstr s)) :
    opGas c Reverse.op L s = opGas d Reverse.op L s ∧ opRun c Reverse.op L s = opRun d Reverse.op L s ∧
    opGas c (scryptOp c A E) L s = opGas d (scryptOp d A E) L s ∧ opRun c (scryptOp c A E) L s = opRun d (scryptOp d A E) L s ∧
    opGas c (Crypto.encryptOp pem) L s = opGas d (Crypto.encryptOp pem) L s ∧ opRun c (Crypto.encryptOp pem) L s = opRun d (Crypto.encryptOp pem) L s := by
  obtain ⟨h1, h2⟩ := C113_entry c d _ (takes_reverse c d) L s hlen hs
  obtain ⟨h3, h4⟩ := C113_entry c d _ (takes_scrypt c d A E) L s hlen hs
  obtain ⟨h5, h6⟩ := C113_entry c d _ (takes_encrypt c d pem) L s hlen hs
  exact ⟨h1, h2, h3, h4, h5, h6⟩

/-- C113, the operation `json`, for every tokenizer. -/
theorem C113_json (c d : Ch) (E : JsonTool.Env) (L : Json.Layout) (s : Bytes) (hlen : s.length ≤ 1073643498) (hs : ShortArgs (cstr s)) :
    opGas c (jsonOp c E) L s = opGas d (jsonOp d E) L s ∧ opRun c (jsonOp c E) L s = opRun d (jsonOp d E) L s := by
  have hl' := Nat.le_trans (cstr_length_le s) hlen
  refine entry_eq c d L (cstr s) hl' hs fun vs ws hp _ hl h => ⟨?_, fun _ _ => ⟨by simp only [jsonOp], by simp only [jsonOp]⟩⟩
  simp only [jsonOp, parseArgs_eq c d E hl h (fun x hx => Nat.lt_of_lt_of_le (arg_lt c L hl' hs hp hx) hl')]

example (c d : Ch) (E : JsonTool.Env) := C113_json c d E ⟨0, 0, 0⟩ (91 :: witness ++ [93]) (by decide) (C113_short _ (by decide))

/-- C113, `rsa_decrypt`: the same if the message is ASCII, hexadecimal digits in particular. -/
theorem C113_decrypt_partial (c d : Ch) (pem : Bytes → Option Crypto.Key) (L : Json.Layout) (s : Bytes) (hlen : s.length ≤ 1073643498)
    (hs : ShortArgs (cstr s)) (ha : ∀ vs t, parse c L (cstr s) = .ok ⟨true, .arr vs⟩ → vs[1]? = some (.str t) → Ascii t) :
    opGas c (decryptOp c pem) L s = opGas d (decryptOp d pem) L s ∧ opRun c (decryptOp c pem) L s = opRun d (decryptOp d pem) L s :=
  entry_eq c d L (cstr s) (Nat.le_trans (cstr_length_le s) hlen) hs fun vs ws hp _ hl h =>
    ⟨decrypt_parse c d pem hl h (fun t ht => ha vs t hp ht) _, fun _ _ => ⟨rfl, rfl⟩⟩

/-- `["k","\xC8000"]` -/
def badHex : Bytes := [91, 34, 107, 34, 44, 34, 200, 48, 48, 48, 34, 93]

/-- C113 is false of `rsa_decrypt` for other messages: with the key 65535 and the exponent 1 the text `["k","\xC8000"]` gives the byte 128 where `char` is
signed and the byte 16 where it is not. -/
theorem C113_decrypt_false :
    opRun .signed (decryptOp .signed fun _ => some ⟨65535, 1, 1⟩) ⟨0, 0, 0⟩ badHex = .ok (some [91, 34, 128, 34, 93]) ∧
    opRun .unsigned (decryptOp .unsigned fun _ => some ⟨65535, 1, 1⟩) ⟨0, 0, 0⟩ badHex = .ok (some [91, 34, 92, 117, 48, 48, 49, 48, 34, 93]) := by
  constructor <;> decide +kernel

/-- `["k","0141"]`: the hypothesis of `C113_decrypt_partial` is met. -/
example (c d : Ch) (pem : Bytes → Option Crypto.Key) :
    let s : Bytes := [91, 34, 107, 34, 44, 34, 48, 49, 52, 49, 34, 93]
    opRun c (decryptOp c pem) ⟨0, 0, 0⟩ s = opRun d (decryptOp d pem) ⟨0, 0, 0⟩ s := by
  refine (C113_decrypt_partial c d pem ⟨0, 0, 0⟩ _ (by decide) (C113_short _ (by decide)) ?_).2
  intro vs t h ht
  have : parse c ⟨0, 0, 0⟩ (cstr [91, 34, 107, 34, 44, 34, 48, 49, 52, 49, 34, 93]) = .ok ⟨true, .arr [.str [107], .str [48, 49, 52, 49]]⟩ := by
    cases c <;> rfl
  rw [this] at h
  cases h
  cases ht
  simp [Ascii]

end Eni.Props
