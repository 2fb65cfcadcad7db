import Verif.Spec.Overload
import Verif.Props.Vector
/-! C120, C121: which constructor and which subscript is called. -/
namespace Eni.Props
open Cxx Spec

theorem wrapInt_small {z : Int} (h : -2147483648 ≤ z ∧ z ≤ 2147483647) : wrapInt z = z := by
  unfold wrapInt; split <;> omega

theorem cstr_append_nul (s : Bytes) : cstr (s ++ [0]) = s.takeWhile (· ≠ 0) := by
  unfold cstr
  induction s with
  | nil => rfl
  | cons b s ih =>
    by_cases h : b = 0
    · simp [h]
    · simp only [List.cons_append, List.takeWhile_cons, h, ne_eq, not_false_eq_true, decide_true, if_true] at ih ⊢
      rw [ih]

theorem zero_notMem_cstr (s : Bytes) : 0 ∉ s.takeWhile (· ≠ 0) := by
  induction s with
  | nil => simp
  | cons b s ih =>
    by_cases h : b = 0
    · simp [h]
    · simp only [List.takeWhile_cons, h, ne_eq, not_false_eq_true, decide_true, if_true, List.mem_cons, not_or] at ih ⊢
      exact ⟨fun e => h e.symm, ih⟩

theorem cstr_lit {s : Bytes} (h : 0 ∉ s) : cstr (s ++ [0]) = s := by
  unfold cstr
  rw [List.takeWhile_append_of_pos (fun b hb => by simpa using fun h0 : b = 0 => h (h0 ▸ hb))]
  simp

/-- The ranges are those of two's complement with 8, 16, 32 and 64 bits. -/
theorem range_bits (t : ITy) : t.range = match t with
    | .bool => (0, 1)
    | .char | .schar => (-2 ^ 7, 2 ^ 7 - 1)
    | .uchar => (0, 2 ^ 8 - 1)
    | .short => (-2 ^ 15, 2 ^ 15 - 1)
    | .ushort => (0, 2 ^ 16 - 1)
    | .int => (-2 ^ 31, 2 ^ 31 - 1)
    | .uint => (0, 2 ^ 32 - 1)
    | .long | .llong => (-2 ^ 63, 2 ^ 63 - 1)
    | .ulong | .ullong => (0, 2 ^ 64 - 1) := by cases t <;> rfl

/-- The order of the conversions is strict: asymmetric (so nothing is better than itself) and transitive. -/
theorem better_strict : (∀ a b : Ics, a.better b = true → b.better a = false) ∧ ∀ a b c : Ics, a.better b = true → b.better c = true → a.better c = true := by
  refine ⟨fun a b => ?_, fun a b c => ?_⟩
  · rcases a with (_ | _) | _ | (_ | _) | _ <;> rcases b with (_ | _) | _ | (_ | _) | _ <;> decide
  · rcases a with (_ | _) | _ | (_ | _) | _ <;> rcases b with (_ | _) | _ | (_ | _) | _ <;> rcases c with (_ | _) | _ | (_ | _) | _ <;> decide

/-- At most one function is the best one. -/
theorem best_unique (ps : List Par) (a : Arg) (p q : Par) (hp : p ∈ ps) (hq : q ∈ ps) (h1 : best ps a p = true) (h2 : best ps a q = true) : p = q := by
  refine Decidable.byContradiction fun hne => ?_
  unfold best at h1 h2
  cases e1 : conv a p with
  | none => simp [e1] at h1
  | some c =>
    cases e2 : conv a q with
    | none => simp [e2] at h2
    | some d =>
      simp only [e1, e2, List.all_eq_true] at h1 h2
      have x := h1 q hq
      have y := h2 p hp
      simp only [e2, e1, if_neg hne, if_neg (Ne.symm hne)] at x y
      rw [better_strict.1 _ _ x] at y
      cases y

/-- The order in which the functions are declared does not matter. -/
theorem resolve_order (ps qs : List Par) (a : Arg) (h : ps.Perm qs) : resolve ps a = resolve qs a := by
  have hb : best ps a = best qs a := by
    funext p
    unfold best
    cases conv a p with
    | none => rfl
    | some c =>
      simp only
      rw [Bool.eq_iff_iff]
      simp only [List.all_eq_true, h.mem_iff]
  unfold resolve
  rw [hb]
  cases e1 : ps.find? (best qs a) with
  | none =>
    symm
    rw [List.find?_eq_none] at e1 ⊢
    exact fun x hx => e1 x (h.mem_iff.mpr hx)
  | some p =>
    cases e2 : qs.find? (best qs a) with
    | none =>
      rw [List.find?_eq_none] at e2
      exact absurd (List.find?_some e1) (e2 p (h.mem_iff.mp (List.mem_of_find?_eq_some e1)))
    | some q =>
      rw [best_unique qs a p q (h.mem_iff.mp (List.mem_of_find?_eq_some e1)) (List.mem_of_find?_eq_some e2) (List.find?_some e1) (List.find?_some e2)]

/-! ### C120 -/

/-- C120, which arguments do not compile: exactly the integers that do not promote to `int`, floating-point numbers, enumerations that do not fit and
scoped ones. -/
theorem C120_refused (a : Arg) : make a = none ↔ Refused a := by
  unfold make
  cases a with
  | int t z => cases t <;> simp [resolve, best, ctors, conv, Refused, Ics.better, ITy.promotes]
  | enum lo hi z =>
    by_cases h : enumInt lo hi = true
    · have h' : ¬ (lo < -2147483648 ∨ 2147483647 < hi) := by
        simp only [enumInt, Bool.and_eq_true, decide_eq_true_eq] at h; omega
      simp [resolve, best, ctors, conv, Refused, Ics.better, h, h']
    · have h' : (lo < -2147483648 ∨ 2147483647 < hi) := by
        simp only [enumInt, Bool.and_eq_true, decide_eq_true_eq] at h; omega
      simp [resolve, best, ctors, conv, Refused, Ics.better, h, h']
  | unum w n =>
    by_cases h : w ≤ 256
    · simp [resolve, best, ctors, conv, Refused, Ics.better, h]
    · simp [resolve, best, ctors, conv, Refused, Ics.better, h]; omega
  | val v r => cases r <;> simp [resolve, best, ctors, conv, Refused, Ics.better]
  | _ => simp [resolve, best, ctors, conv, Refused, Ics.better]

/-- C120 is false of the code: every pointer that is not one to characters is accepted and becomes a boolean, … -/
theorem C120_pointer_false (isNull : Bool) : make (.ptr isNull) = some (.ok (.bool (!isNull))) ∧ ¬ Faithful (.ptr isNull) := by
  have h : make (.ptr isNull) = some (.ok (.bool (!isNull))) := rfl
  exact ⟨h, fun f => by obtain ⟨v, hv, -⟩ := f _ h; cases hv⟩

/-- … a literal is cut at its first NUL, … -/
theorem C120_literal_false (s : Bytes) :
    make (.lit s) = some (.ok (.str (s.takeWhile (· ≠ 0)))) ∧ (0 ∈ s → ¬ Faithful (.lit s)) := by
  have e := cstr_append_nul s
  have h : make (.lit s) = some (.ok (.str (s.takeWhile (· ≠ 0)))) := by
    have : make (.lit s) = some (do let t ← ofCstr (some (s ++ [0])); .ok (.str t)) := rfl
    rw [this, ofCstr, if_pos (by simp), Res.ok_bind, e]
  refine ⟨h, fun h0 f => ?_⟩
  obtain ⟨v, hv, he⟩ := f _ h
  cases hv
  injection he with he
  injection he with he
  have hn := zero_notMem_cstr s
  rw [he] at hn
  exact hn h0

/-- … and an enumerator becomes its number; so the null value, which is made from the enumerator `UNDEF`, is an integer. -/
theorem C120_enumerator_false (lo hi z : Int) (h : -2147483648 ≤ lo ∧ lo ≤ z ∧ z ≤ hi ∧ hi ≤ 2147483647) :
    make (.enum lo hi z) = some (.ok (.int z)) ∧ ¬ Faithful (.enum lo hi z) := by
  have e : enumInt lo hi = true := by simp only [enumInt, Bool.and_eq_true, decide_eq_true_eq]; omega
  have r : resolve ctors (.enum lo hi z) = some .int := by simp [resolve, best, ctors, conv, Ics.better, e]
  have m : make (.enum lo hi z) = some (.ok (.int z)) := by
    rw [make, r]
    simp only [Option.map_some, construct, asInt, Res.ok_bind, wrapInt_small (z := z) (by omega)]
  exact ⟨m, fun f => by obtain ⟨v, hv, -⟩ := f _ m; cases hv⟩

theorem C120_null_value : make (.enum 0 5 5) = some (.ok Value.nullValue) := (C120_enumerator_false 0 5 5 (by decide)).1

/-- C120, exactly: what is made is what the argument stands for, except for pointers that are not to characters, enumerators, null pointers, characters
without NUL at the end and literals with a NUL in them. -/
theorem C120_exact_partial (a : Arg) (ht : Typed a) : Faithful a ↔ ¬ Deceptive a := by
  have absurdly : ∀ r, make a = some r → wanted a = none → ¬ Faithful a := by
    intro r hr hw f
    obtain ⟨v, hv, -⟩ := f r hr
    rw [hw] at hv; cases hv
  have plainly : ∀ v, make a = some (.ok v) → wanted a = some v → Faithful a := by
    intro v hm hw r hr
    rw [hm] at hr; cases hr
    exact ⟨v, hw, rfl⟩
  have refused : Refused a → Faithful a := by
    intro hR r hr
    rw [(C120_refused a).mpr hR] at hr; cases hr
  cases a with
  | int t z =>
    have nd : ¬ Deceptive (.int t z) := id
    refine ⟨fun _ => nd, fun _ => ?_⟩
    have small : -2147483648 ≤ z ∧ z ≤ 2147483647 → make (.int t z) = some (.ok (.int (wrapInt z))) → wanted (.int t z) = some (.int z) →
        Faithful (.int t z) := by
      intro hz hm hw
      rw [wrapInt_small hz] at hm
      exact plainly _ hm hw
    simp only [Typed] at ht
    cases t with
    | bool =>
      simp only [ITy.range] at ht
      refine plainly (.bool (decide (z = 1))) ?_ rfl
      have : make (.int .bool z) = some (.ok (.bool (decide (z ≠ 0)))) := rfl
      rw [this]
      have : (decide (z ≠ 0)) = (decide (z = 1)) := by
        apply decide_eq_decide.mpr; omega
      rw [this]
    | char => simp only [ITy.range] at ht; exact small (by omega) rfl rfl
    | schar => simp only [ITy.range] at ht; exact small (by omega) rfl rfl
    | uchar => simp only [ITy.range] at ht; exact small (by omega) rfl rfl
    | short => simp only [ITy.range] at ht; exact small (by omega) rfl rfl
    | ushort => simp only [ITy.range] at ht; exact small (by omega) rfl rfl
    | int => simp only [ITy.range] at ht; exact small (by omega) rfl rfl
    | uint => exact refused (by simp [Refused])
    | long => exact refused (by simp [Refused])
    | ulong => exact refused (by simp [Refused])
    | llong => exact refused (by simp [Refused])
    | ullong => exact refused (by simp [Refused])
  | float z => exact ⟨fun _ => id, fun _ => refused trivial⟩
  | enum lo hi z =>
    simp only [Typed] at ht
    by_cases h : -2147483648 ≤ lo ∧ hi ≤ 2147483647
    · exact ⟨fun f => absurd f (C120_enumerator_false lo hi z ⟨h.1, ht.1, ht.2, h.2⟩).2, fun n => absurd h n⟩
    · exact ⟨fun _ => h, fun _ => refused (by simp only [Refused]; omega)⟩
  | enumClass z => exact ⟨fun _ => id, fun _ => refused trivial⟩
  | null => exact ⟨fun f => absurd f (absurdly (.ub .nullDeref) rfl rfl), fun n => absurd trivial n⟩
  | cptr m =>
    cases m with
    | none => exact ⟨fun f => absurd f (absurdly (.ub .nullDeref) rfl rfl), fun n => absurd trivial n⟩
    | some m =>
      have e : make (.cptr (some m)) = some (do let t ← ofCstr (some m); .ok (.str t)) := rfl
      by_cases h0 : 0 ∈ m
      · refine ⟨fun _ => by simpa [Deceptive] using h0, fun _ => plainly (.str (cstr m)) ?_ ?_⟩
        · rw [e, ofCstr, if_pos h0, Res.ok_bind]
        · rw [wanted, if_pos h0]; rfl
      · refine ⟨fun f => ?_, fun n => absurd h0 n⟩
        exact absurd f (absurdly (.ub .outOfBounds) (by rw [e, ofCstr, if_neg h0]; rfl) (by rw [wanted, if_neg h0]))
  | lit s =>
    by_cases h0 : 0 ∈ s
    · exact ⟨fun f => absurd f ((C120_literal_false s).2 h0), fun n => absurd h0 n⟩
    · refine ⟨fun _ => h0, fun _ => plainly (.str s) ?_ rfl⟩
      have e : make (.lit s) = some (do let t ← ofCstr (some (s ++ [0])); .ok (.str t)) := rfl
      rw [e, ofCstr, if_pos (by simp), Res.ok_bind, cstr_lit h0]
  | ptr n => exact ⟨fun f => absurd f (C120_pointer_false n).2, fun h => absurd trivial h⟩
  | str s => exact ⟨fun _ => id, fun _ => plainly _ rfl rfl⟩
  | s256 z => exact ⟨fun _ => id, fun _ => plainly _ rfl rfl⟩
  | unum w n =>
    refine ⟨fun _ => id, fun _ => ?_⟩
    by_cases h : w ≤ 256
    · refine plainly (.int n) ?_ rfl
      have r : resolve ctors (.unum w n) = some .s256 := by simp [resolve, best, ctors, conv, h]
      rw [make, r]; rfl
    · exact refused (by simp only [Refused]; omega)
  | obj m => exact ⟨fun _ => id, fun _ => plainly _ rfl rfl⟩
  | arr vs => exact ⟨fun _ => id, fun _ => plainly _ rfl rfl⟩
  | val v r =>
    refine ⟨fun _ => id, fun _ => ?_⟩
    cases r <;> cases v <;> exact plainly _ rfl rfl

/-- Arguments of both kinds: `Value(12)`, `Value("a\0b")` and an address. -/
example : Faithful (.int .int 12) := (C120_exact_partial (.int .int 12) ⟨by decide, by decide⟩).mpr id
example : ¬ Faithful (.lit [97, 0, 98]) := fun f => (C120_exact_partial (.lit [97, 0, 98]) trivial).mp f (show (0 : UInt8) ∈ [97, 0, 98] by decide)
example : Faithful (.unum 160 (2 ^ 160 - 1)) := (C120_exact_partial (.unum 160 _) (show 2 ^ 160 - 1 < 2 ^ 160 by decide)).mpr id

/-! ### C121 -/

theorem subscript_int (v : Value) (t : ITy) (z : Int) : subscript v (.int t z) = some (Value.indexInt v (wrapInt z)) := by
  cases t <;> rfl

theorem arraySub_int (vs : List Value) (t : ITy) (z : Int) : arraySub vs (.int t z) = some (Value.indexInt (.arr vs) (wrapInt z)) := by
  cases t <;> rfl

theorem indexInt_pick (vs : List Value) (hl : vs.length ≤ 2 ^ 63) (i : Int) (hi : -2147483648 ≤ i ∧ i ≤ 2147483647) :
    Value.indexInt (.arr vs) i = pick vs i := by
  unfold pick
  split
  · next h =>
    have e : (i % 18446744073709551616).toNat = i.toNat := by omega
    simp only [Value.indexInt, e]
    rw [List.getElem?_eq_getElem (by omega)]
  · next h =>
    have : vs.length ≤ (i % 18446744073709551616).toNat := by omega
    simp [Value.indexInt, List.getElem?_eq_none this]

theorem wrapInt_range (z : Int) : -2147483648 ≤ wrapInt z ∧ wrapInt z ≤ 2147483647 := by
  unfold wrapInt; split <;> omega

/-- C121, exactly: whatever the type of the index, what counts are its low 32 bits, read as `int`. -/
theorem C121_exact_partial (vs : List Value) (hl : vs.length ≤ 2 ^ 63) (t : ITy) (z : Int) :
    ∃ i : Int, -2 ^ 31 ≤ i ∧ i < 2 ^ 31 ∧ (∃ q : Int, z = i + q * 2 ^ 32) ∧
      subscript (.arr vs) (.int t z) = some (pick vs i) ∧ arraySub vs (.int t z) = some (pick vs i) := by
  have hr := wrapInt_range z
  refine ⟨wrapInt z, by omega, by omega, ⟨(z - wrapInt z) / 4294967296, ?_⟩, ?_, ?_⟩
  · unfold wrapInt; split <;> omega
  · rw [subscript_int, indexInt_pick vs hl _ hr]
  · rw [arraySub_int, indexInt_pick vs hl _ hr]

/-- C121, the part that holds: for the types whose values `int` represents, and for the values of other types that it represents. -/
theorem C121_small_partial (vs : List Value) (hl : vs.length ≤ 2 ^ 63) (t : ITy) (z : Int) (hz : -2 ^ 31 ≤ z ∧ z < 2 ^ 31) :
    subscript (.arr vs) (.int t z) = some (pick vs z) ∧ arraySub vs (.int t z) = some (pick vs z) := by
  rw [subscript_int, arraySub_int, wrapInt_small (z := z) (by omega), indexInt_pick vs hl z (by omega)]
  exact ⟨rfl, rfl⟩

/-- C121 is false of the code: an index of 64 bits that is 2^32 too large gives an element of every array that has one, instead of an exception. -/
theorem C121_wrap_false (vs : List Value) (hl : vs.length ≤ 2 ^ 31) (n : Nat) (h : n < vs.length) (t : ITy) :
    subscript (.arr vs) (.int t (2 ^ 32 + n)) = some (.ok vs[n]) ∧ arraySub vs (.int t (2 ^ 32 + n)) = some (.ok vs[n]) ∧
      pick vs (2 ^ 32 + n) = .throw .invalidVectorIndex := by
  have w : wrapInt (2 ^ 32 + n) = n := by unfold wrapInt; split <;> omega
  have p : pick vs (n : Int) = .ok vs[n] := by
    unfold pick
    rw [dif_pos (by omega)]
    rfl
  refine ⟨?_, ?_, ?_⟩
  · rw [subscript_int, w, indexInt_pick vs (by omega) _ (by omega), p]
  · rw [arraySub_int, w, indexInt_pick vs (by omega) _ (by omega), p]
  · unfold pick
    rw [dif_neg (by omega)]

/-- C121 is false of the code (2): a floating-point index is accepted and truncated. One whose integer part is no `int` is undefined, instead of an exception. -/
theorem C121_float_false (vs : List Value) (hl : vs.length ≤ 2 ^ 63) (z : Option Int) :
    subscript (.arr vs) (.float z) = some (match z with | some i => if -2 ^ 31 ≤ i ∧ i < 2 ^ 31 then pick vs i else .ub .overflow | none => .ub .overflow) ∧
      arraySub vs (.float z) = some (match z with | some i => if -2 ^ 31 ≤ i ∧ i < 2 ^ 31 then pick vs i else .ub .overflow | none => .ub .overflow) := by
  have e1 : subscript (.arr vs) (.float z) = some (do let i ← asInt (.float z); Value.indexInt (.arr vs) i) := rfl
  have e2 : arraySub vs (.float z) = some (do let i ← asInt (.float z); Value.indexInt (.arr vs) i) := rfl
  rw [e1, e2]
  cases z with
  | none => exact ⟨rfl, rfl⟩
  | some i =>
    by_cases h : -2147483648 ≤ i ∧ i ≤ 2147483647
    · have h' : (-2 ^ 31 : Int) ≤ i ∧ i < 2 ^ 31 := by omega
      simp only [asInt, if_pos h, if_pos h', Res.ok_bind, indexInt_pick vs hl i h, and_self]
    · have h' : ¬ ((-2 ^ 31 : Int) ≤ i ∧ i < 2 ^ 31) := by omega
      simp only [asInt, if_neg h, if_neg h']
      exact ⟨rfl, rfl⟩

/-- C121, enumerators: those of an enumeration within `int` are used as they are. -/
theorem C121_enum_partial (vs : List Value) (hl : vs.length ≤ 2 ^ 63) (lo hi z : Int) (h : -2 ^ 31 ≤ z ∧ z < 2 ^ 31) :
    subscript (.arr vs) (.enum lo hi z) = some (pick vs z) ∧ arraySub vs (.enum lo hi z) = some (pick vs z) := by
  have e2 : arraySub vs (.enum lo hi z) = some (do let i ← asInt (.enum lo hi z); Value.indexInt (.arr vs) i) := by
    by_cases he : enumInt lo hi = true <;> simp [arraySub, resolve, best, conv, he]
  have e1 : subscript (.arr vs) (.enum lo hi z) = some (do let i ← asInt (.enum lo hi z); Value.indexInt (.arr vs) i) := by
    by_cases he : enumInt lo hi = true <;> simp [subscript, resolve, best, conv, he]
  rw [e1, e2]
  simp only [asInt, Res.ok_bind, wrapInt_small (z := z) (by omega), indexInt_pick vs hl z (by omega), and_self]

example : subscript (.arr [.bool true]) (.float (some 0)) = some (.ok (.bool true)) ∧ subscript (.arr [.bool true]) (.float (some (2 ^ 31))) = some (.ub .overflow) := by
  refine ⟨(C121_float_false [.bool true] (by decide) (some 0)).1.trans (by rfl), (C121_float_false [.bool true] (by decide) (some (2 ^ 31))).1.trans (by rfl)⟩

/-- C121 holds for `at` of vectors, for every integer type: the conversion is to 64 bits. -/
theorem C121_vector {α : Type} (cfg : Vec.Cfg α) {v : Vec α} (hr : Vec.Reachable cfg v) (t : ITy) (z : Int) (ht : Typed (.int t z)) :
    ∃ xs : List α, v.size = xs.length ∧
      vectorAt v z = .ok (v, if h : 0 ≤ z ∧ z < xs.length then .val (xs[z.toNat]'(by omega)) else .exc .invalidVectorIndex) := by
  obtain ⟨xs, R, F⟩ := Vec.reachable_rep hr
  have hF := Vec.fits_le F
  obtain ⟨xs', hs', hin, hout, -⟩ := C17_checked_access cfg hr
  have hs := R.size_eq
  have hz : -9223372036854775808 ≤ z ∧ z ≤ 18446744073709551615 := by
    simp only [Typed] at ht
    cases t <;> simp only [ITy.range] at ht <;> omega
  refine ⟨xs', hs', ?_⟩
  unfold vectorAt
  split
  · next h =>
    have e : (z % 18446744073709551616).toNat = z.toNat := by omega
    rw [e, (hin z.toNat (by omega)).1]
  · next h =>
    exact hout _ (by omega)

/-- A subscript with a character is one with its number, even on an object; only strings are keys. -/
theorem C121_key (m : Table (SEntry Value)) (k : Bytes) (t : ITy) (z : Int) :
    subscript (.obj m) (.str k) = some (Value.index (.obj m) k) ∧ subscript (.obj m) (.int t z) = some (.ok Value.nullValue) := by
  refine ⟨rfl, ?_⟩
  rw [subscript_int]; rfl

example : subscript (.arr [.bool true]) (.int .ulong (2 ^ 32 + (0 : Nat))) = some (.ok (.bool true)) :=
  (C121_wrap_false [.bool true] (by decide) 0 (by decide) .ulong).1
example : subscript (.arr [.bool true]) (.int .char (-1)) = some (.throw .invalidVectorIndex) := by
  rw [(C121_small_partial [.bool true] (by decide) .char (-1) (by decide)).1]; rfl
example : Typed (.int .long (-1)) := ⟨by decide, by decide⟩

end Eni.Props
