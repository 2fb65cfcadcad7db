import Verif.Proofs.PrintValue
/-!
# C130: the text of printValue
-/
namespace Eni.Props
open Spec.Shown Holder

/-- C130. The text determines the kind and all eight bytes of the union, and nothing else goes into it. -/
theorem C130_bytes (v w : Val) : text v = text w ↔ v.kind = w.kind ∧ v.word = w.word := by
  constructor
  · intro h
    simp only [text, List.cons_append, List.cons.injEq, true_and, List.append_cancel_right_eq] at h
    exact ⟨code_inj _ _ h.1, ptrText_inj _ _ h.2⟩
  · rintro ⟨h1, h2⟩
    rw [text, text, h1, h2]

/-- A number in hexadecimal with small letters. -/
inductive HexNum : List Char → Nat → Prop
  | nil : HexNum [] 0
  | snoc {ds : List Char} {n d : Nat} {c : Char} : HexNum ds n → "0123456789abcdef".toList[d]? = some c → HexNum (ds ++ [c]) (16 * n + d)

theorem hexChar_digit (d : Nat) (h : d < 16) : "0123456789abcdef".toList[d]? = some (hexChar d) := by
  have : ∀ d : Fin 16, "0123456789abcdef".toList[d.val]? = some (hexChar d.val) := by decide
  exact this ⟨d, h⟩

/-- C130, what is printed: the number of the kind and the bytes of the union in hexadecimal without leading zeros. -/
theorem C130_digits (v : Val) (h : v.word ≠ 0) : ∃ ds, text v = '(' :: Char.ofNat (48 + v.kind.code) :: ',' :: '0' :: 'x' :: ds ++ [')', '\n'] ∧ HexNum ds v.word ∧
    ds.head? ≠ some '0' ∧ ds ≠ [] := by
  have key : ∀ n : Nat, n ≠ 0 → HexNum (hexRev n).reverse n ∧ (hexRev n).reverse.head? ≠ some '0' ∧ hexRev n ≠ [] := by
    intro n
    induction n using Nat.strongRecOn with
    | _ n ih =>
      intro hn
      rw [hexRev]
      split
      · rename_i h16
        have h1 := HexNum.snoc .nil (hexChar_digit n h16)
        rw [Nat.mul_zero, Nat.zero_add] at h1
        refine ⟨h1, ?_, by simp⟩
        have : ∀ d : Fin 16, d.val ≠ 0 → some (hexChar d.val) ≠ some '0' := by decide
        exact this ⟨n, h16⟩ hn
      · rename_i h16
        obtain ⟨h1, h2, h3⟩ := ih (n / 16) (by omega) (by omega)
        have h4 := h1.snoc (hexChar_digit (n % 16) (Nat.mod_lt _ (by omega)))
        rw [Nat.div_add_mod] at h4
        refine ⟨by simpa using h4, ?_, by simp⟩
        rw [List.reverse_cons, List.head?_append]
        cases hr : (hexRev (n / 16)).reverse with
        | nil => simp at hr; exact absurd hr h3
        | cons c r => rw [hr] at h2; simpa using h2
  obtain ⟨h1, h2, h3⟩ := key v.word h
  exact ⟨_, by simp [text, ptrText, h], h1, h2, by simpa using h3⟩

example : text ⟨.int, 0x7fabc⟩ = "(0,0x7fabc)\n".toList := by simp [text, ptrText, hexRev, hexChar, Kind.code]
example := C130_digits ⟨.str, 0x7fabc⟩ (by decide)

/-- C130, what holds: in every program, whatever the addresses, every variable shows the contents that the program gives it, and a variable whose memory
never held an address prints a text that the program alone determines; for a boolean it is determined by the boolean alone. Missing: variables
whose memory held an address (see below). -/
theorem C130_plain_partial (p : List Stmt) (as : List Nat) (vs : List Val) (h : run [] p as = some vs) :
    ∃ ss, acts [] (p.map toAct) = some ss ∧ vs.length = ss.length ∧ ∀ (i : Nat) (v : Val) (s : Var), vs[i]? = some v → ss[i]? = some s →
      s.content = content v ∧ (s.used = false → plainText s.content s.last = some (text v)) := by
  obtain ⟨ss, h1, h2⟩ := run_at p (ss := []) ⟨rfl, by simp⟩ h
  refine ⟨ss, h1, h2.1, fun i v s hv hs => ?_⟩
  obtain ⟨h3, h4⟩ := h2.2 i v s hv hs
  refine ⟨h3, fun hu => ?_⟩
  obtain ⟨h5, h6⟩ := h4 hu
  rw [h3]
  obtain ⟨k, w⟩ := v
  simp only at h6
  subst h6
  cases k <;> simp only [Kind.isPtr, Bool.true_eq_false, reduceCtorEq] at h5 <;> cases s.last <;> simp [plainText, content, text, ptrText, hexRev, hexChar, Kind.code, getBool]

/-- C130 is false: the text of the same string is different for different addresses, as they are from one node to another. -/
theorem C130_address_false (a b : Nat) (hab : a ≠ b) (k : Kind) (hk : k.isPtr = true) : ∃ v w, run [] [.new k] [a] = some [v] ∧ run [] [.new k] [b] = some [w] ∧
    content v = content w ∧ text v ≠ text w :=
  ⟨⟨k, a⟩, ⟨k, b⟩, by simp [run, step, hk], by simp [run, step, hk], by cases k <;> simp_all [content, Kind.isPtr],
    fun h => hab ((C130_bytes _ _).mp h).2⟩

/-- C130 is false of booleans: after the assignment of a boolean to a variable with a string, the text contains all but the lowest byte of the address of the
string, for two equal booleans in the same program and for the same program with other addresses. -/
theorem C130_stale_false (a b : Nat) (hab : a / 256 ≠ b / 256) (ha : 256 ≤ a) (c : Bool) : ∃ v w x,
    run [] [.new .str, .bool c, .assign 0 1] [a, 0, 0] = some [v, x] ∧ run [] [.new .str, .bool c, .assign 0 1] [b, 0, 0] = some [w, x] ∧
    content v = .truth c ∧ content w = .truth c ∧ content x = .truth c ∧ text v ≠ text w ∧ text v ≠ text x ∧ v.word / 256 = a / 256 := by
  refine ⟨⟨.bool, setBool a c⟩, ⟨.bool, setBool b c⟩, ⟨.bool, setBool 0 c⟩, ?_, ?_, ?_, ?_, ?_, fun h => ?_, fun h => ?_, ?_⟩
  · simp [run, step, Kind.isPtr, store, getBool_setBool]
  · simp [run, step, Kind.isPtr, store, getBool_setBool]
  · simp [content, getBool_setBool]
  · simp [content, getBool_setBool]
  · simp [content, getBool_setBool]
  · have := ((C130_bytes _ _).mp h).2
    simp only [setBool] at this
    omega
  · have := ((C130_bytes _ _).mp h).2
    simp only [setBool] at this
    omega
  · have := small_toNat c
    simp only [setBool]
    omega

/-- C130 is false of undefined values, without any address: a value from which a boolean was moved is undefined and still prints the boolean. -/
theorem C130_moved_false : ∃ v w x, run [] [.bool true, .move 0, .undef] [0, 0, 0] = some [v, w, x] ∧ content v = content x ∧ text v ≠ text x :=
  ⟨⟨.undef, 1⟩, ⟨.bool, 1⟩, ⟨.undef, 0⟩, by decide, by decide, by decide⟩

/-- A program with every statement. -/
example : run [] [.bool true, .new .int, .copy 0, .move 0, .undef, .delegate 4 .arr, .assign 2 0, .copy 1] [0, 4096, 0, 0, 0, 8192, 0, 12288] =
    some [⟨.undef, 1⟩, ⟨.int, 4096⟩, ⟨.undef, 1⟩, ⟨.bool, 1⟩, ⟨.arr, 8192⟩, ⟨.int, 12288⟩] := by decide
example := C130_plain_partial [.bool true, .new .int, .copy 0, .move 0, .undef, .delegate 4 .arr, .assign 2 0, .copy 1] [0, 4096, 0, 0, 0, 8192, 0, 12288]
  [⟨.undef, 1⟩, ⟨.int, 4096⟩, ⟨.undef, 1⟩, ⟨.bool, 1⟩, ⟨.arr, 8192⟩, ⟨.int, 12288⟩] (by decide)
example := C130_address_false 4096 8192 (by decide) .str rfl
example := C130_stale_false 4096 8192 (by decide) (by decide) true
example : text ⟨.bool, 4097⟩ = "(1,0x1001)\n".toList := by simp [text, ptrText, hexRev, hexChar, Kind.code]

end Eni.Props
