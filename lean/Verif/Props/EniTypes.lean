import Verif.Model.EniTypes
import Verif.Props.EniBase
import Verif.Props.JsonTool
/-!
# C109, C111: texts of ENI types; arguments arrive as they were passed
-/
namespace Eni.Props
open Spec Base Json

variable {S : Type}

/-! ### C109 -/

/-- C109, unsigned types of any width: the decimal numeral of the value, without leading zeros, at most as long as that of 2^w - 1, different for
different values; the JSON parser reads it as the same number when it fits into 256 bits. -/
theorem C109_unsigned (L : Layout) {w : Nat} (n m : UNum w) :
    NatText (toStringU n) n.mag ∧ (toStringU n = toStringU m → n.mag = m.mag) ∧
    (w ≤ 256 → ∀ r, NoDigit r → parse L (toStringU n ++ r) = .ok ⟨true, .int n.mag⟩) := by
  have h1 : ∀ k : UNum w, NatText (toStringU k) k.mag := fun k => natDec_text _
  refine ⟨h1 n, fun h => ?_, fun hw r hr => ?_⟩
  · have a := (h1 n).2.2.2
    have b := (h1 m).2.2.2
    rw [h] at a
    rw [a, b]
  · refine (C28_integers L (.nonneg (h1 n)) hr).2 ?_
    have := n.lt
    have := Nat.pow_le_pow_right (n := 2) (by decide) hw
    simp
    omega

/-- C109, what is stored: the integer modulo 2^w, hence the integer itself when it is in range. -/
theorem C109_stored (w : Nat) (z : Int) :
    (0 ≤ z → z < 2 ^ w → ((UNum.ofInt w z).mag : Int) = z) ∧ (∃ k : Int, z = (UNum.ofInt w z).mag + k * 2 ^ w) ∧
    (-2 ^ w ≤ z → z < 0 → NatText (toStringU (UNum.ofInt w z)) (2 ^ w - z.natAbs)) := by
  have hp : (0 : Int) < ((2 ^ w : Nat) : Int) := Int.natCast_pos.mpr (Nat.two_pow_pos w)
  have he : ((UNum.ofInt w z).mag : Int) = z % ((2 ^ w : Nat) : Int) := by
    have := Int.emod_nonneg z (Int.ne_of_gt hp)
    simp only [UNum.ofInt]
    omega
  have hc : ((2 ^ w : Nat) : Int) = 2 ^ w := by simp
  refine ⟨fun h0 h1 => ?_, ⟨z / ((2 ^ w : Nat) : Int), ?_⟩, fun h0 h1 => ?_⟩
  · rw [he]
    exact Int.emod_eq_of_lt h0 (by rw [hc]; exact h1)
  · have := Int.emod_add_mul_ediv z ((2 ^ w : Nat) : Int)
    rw [he, ← hc, Int.mul_comm]
    exact this.symm
  · have h3 : (z + ((2 ^ w : Nat) : Int)) % ((2 ^ w : Nat) : Int) = z + ((2 ^ w : Nat) : Int) := by
      refine Int.emod_eq_of_lt (by rw [hc]; omega) (by omega)
    rw [Int.add_emod_right] at h3
    have hm : (UNum.ofInt w z).mag = 2 ^ w - z.natAbs := by
      rw [← hc] at h0
      omega
    rw [← hm]
    exact natDec_text _

/-- C109, `s256`: the numeral with `-` in front of negative numbers, different for different values, read back by the JSON parser. -/
theorem C109_signed (L : Layout) (n m : SNum) :
    IntText (toStringS n) n.val ∧ (toStringS n = toStringS m → n.val = m.val) ∧
    ∀ r, NoDigit r → parse L (toStringS n ++ r) = .ok ⟨true, .int n.val⟩ := by
  have hr : ∀ (n : SNum) r, NoDigit r → parse L (toStringS n ++ r) = .ok ⟨true, .int n.val⟩ := fun n r hr =>
    (C28_integers L (print_int_text n.val) hr).2 n.lt
  refine ⟨print_int_text _, fun h => ?_, hr n⟩
  have a := hr n [] (by simp [NoDigit])
  have b := hr m [] (by simp [NoDigit])
  rw [h, b] at a
  simpa using a.symm

/-- C109, `Bool`: `true` and `false`, as the JSON texts of the values. -/
theorem C109_bool (L : Layout) (hL : L.Good) (b : Bool) (r : Bytes) :
    toStringB true = "true".toUTF8.toList ∧ toStringB false = "false".toUTF8.toList ∧ parse L (toStringB b ++ r) = .ok ⟨true, .bool b⟩ ∧
    toStringB b = Value.print (.bool b) := by
  refine ⟨by decide +kernel, by decide +kernel, ?_, by cases b <;> rw [Value.print] <;> rfl⟩
  have ht : JText (toStringB b) (.bool b) := by cases b; exacts [.false_, .true_]
  obtain ⟨x, h1, _, h2⟩ := parse_text (L := L) (w := []) (r := r) (by simp [WS]) ht (by simp) (.inl hL) (.inl .bool)
  cases h2 .bool
  exact h1

/-- the largest `u64`, the address -1, and the most negative `s256` -/
example : toStringU (UNum.ofInt 64 (-1)) = "18446744073709551615".toUTF8.toList ∧
    toStringU (UNum.ofInt 160 (-1)) = "1461501637330902918203684832716283019655932542975".toUTF8.toList ∧
    toStringU (UNum.ofInt 64 (2 ^ 64 + 7)) = [55] ∧
    toStringS ⟨-(2 ^ 256 - 1), by decide⟩ = "-115792089237316195423570985008687907853269984665640564039457584007913129639935".toUTF8.toList := by
  decide +kernel

/-! ### C111 -/

/-- An argument of an ENI call. -/
inductive Arg where
  | str (s : Bytes)
  | int (z : Int)
  | bool (b : Bool)
  | arr (js : List JV)

/-- The JSON value that stands for it. -/
def Arg.json : Arg → JV
  | .str s => .str s
  | .int z => .int z
  | .bool b => .bool b
  | .arr js => .arr js

/-- What the operation reads with `pArgs[i].toTYPE()`. -/
def ReadArg (vs : List Value) (i : Nat) : Arg → Prop
  | .str s => (Value.argAt vs i >>= Value.toStr) = .ok s
  | .int z => (Value.argAt vs i >>= Value.toInteger) = .ok z
  | .bool b => (Value.argAt vs i >>= Value.toBoolean) = .ok b
  | .arr js => ∃ us, (Value.argAt vs i >>= Value.toArray) = .ok us ∧ Shows (.arr us) (.arr js)

/-- C111: for every list of arguments and every text of it, the `parse` hook of any operation is called with an array that has one element per argument, in
the order of the arguments; the accessor for the type of an argument returns that argument, and an index after the last argument throws. -/
theorem C111_arguments (L : Layout) (hL : L.Good) {w t r : Bytes} (as : List Arg) (hw : WS w) (ht : JText t (.arr (as.map Arg.json)))
    (hk : ShortKeys (.arr (as.map Arg.json))) (hlen : (w ++ (t ++ r)).length ≤ 1073643498) (h0 : 0 ∉ w ++ (t ++ r)) :
    ∃ vs : List Value, vs.length = as.length ∧ (∀ i a, as[i]? = some a → ReadArg vs i a) ∧
      (∀ i : Int, as.length ≤ i → i < 2 ^ 31 → Value.argAt vs i = .throw .invalidVectorIndex) ∧
      ∀ (S : Type) (H : Hooks S), ∃ o, construct H L (cstr (w ++ (t ++ r))) = .ok o ∧ o.calls = [] ∧ (check H o).2 = (H.parse H.init vs).2 ∧
        (check H o).1.st = (H.parse H.init vs).1 := by
  obtain ⟨x, hp, hx⟩ := C24_complete L hL (r := r) hw ht (by simp) hk hlen
  cases hx with
  | @arr vs _ hl hs =>
  rw [List.length_map] at hl
  have hlen2 : as.length ≤ 2 ^ 63 := by
    have := arr_length ht
    simp only [List.length_map, List.length_append] at this hlen
    omega
  have hat : ∀ (i : Nat) v, vs[i]? = some v → Value.argAt vs i = .ok v := by
    intro i v hv
    have hi : i < vs.length := (List.getElem?_eq_some_iff.mp hv).1
    have e : (((i : Int) % 18446744073709551616).toNat) = i := by omega
    rw [Value.argAt, e, hv]
  refine ⟨vs, hl, ?_, ?_, ?_⟩
  · intro i a ha
    have hi : i < vs.length := by rw [hl]; exact (List.getElem?_eq_some_iff.mp ha).1
    obtain ⟨v, hv⟩ : ∃ v, vs[i]? = some v := ⟨_, List.getElem?_eq_getElem hi⟩
    have := hs i v a.json hv (by rw [List.getElem?_map, ha]; rfl)
    cases a with
    | str s => cases this; show (_ >>= _) = _; rw [hat i _ hv]; rfl
    | int s => cases this; show (_ >>= _) = _; rw [hat i _ hv]; rfl
    | bool s => cases this; show (_ >>= _) = _; rw [hat i _ hv]; rfl
    | arr js =>
      have h' := this
      cases this
      exact ⟨_, by rw [hat i _ hv]; rfl, h'⟩
  · intro i h1 h2
    have e : vs.length ≤ (i % 18446744073709551616).toNat := by omega
    rw [Value.argAt, List.getElem?_eq_none e]
  · intro S H
    rw [cstr_of_notMem h0]
    refine ⟨⟨false, false, copyTop (.arr vs), .arr [], H.init, []⟩, by simp [construct, hp], rfl, ?_, ?_⟩ <;>
    · simp only [check, copyTop, Value.toArray]
      cases (H.parse H.init vs).2 <;> simp

/-- the arguments of the developer's guide, `["Messages", 1024, true]` with a shorter string -/
example : JText [91, 34, 77, 34, 44, 32, 49, 48, 50, 52, 44, 32, 116, 114, 117, 101, 93] (.arr ([Arg.str [77], .int 1024, .bool true].map Arg.json)) := by
  have h1 : Elems [34, 77, 34, 44, 32, 49, 48, 50, 52, 44, 32, 116, 114, 117, 101] [.str [77], .int 1024, .bool true] := by
    refine .cons (w := []) (t := [34, 77, 34]) (w' := []) (by simp [WS]) (.str (b := [77]) (.raw (by decide) (by decide) .nil)) (by simp [WS])
      (.cons (w := [32]) (t := [49, 48, 50, 52]) (w' := []) (by simp [WS]) ?_ (by simp [WS])
        (.one (w := [32]) (t := [116, 114, 117, 101]) (w' := []) (by simp [WS]) .true_ (by simp [WS])))
    have := JText.int (.nonneg (natDec_text 1024))
    have e : Value.natDec 1024 = [49, 48, 50, 52] := by decide +kernel
    rw [e] at this
    exact this
  exact .arr h1

end Eni.Props
