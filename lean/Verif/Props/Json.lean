import Verif.Proofs.JsonParse
/-!
# Properties C23-C33, C35: the JSON parser, printer and value subscripts

`JText t j` (Spec/Json) says that the text `t` denotes the JSON value `j`; `Shows v j` that the `json::Value` `v` looks like `j` to its
user. `Layout` are the addresses that the comparison in `have(const char*)` depends on; `Layout.Good` means that both string literals lie
below the end of the text.

Texts containing objects with members are limited to 1073643498 bytes (about 2^30), because the counters of the hash table have 32 bits.
-/
namespace Eni.Props
open Spec Json

/-! ### C23 -/

/-- C23. Parsing any text of at most 1073643498 bytes, in any memory layout, terminates with success or failure: no access outside of the
text and its terminating NUL, no access through an empty stack, no endless loop. -/
theorem C23_total (L : Layout) (s : Bytes) (hlen : s.length ≤ 1073643498) : ∃ b root, parse L s = .ok ⟨b, root⟩ := by
  rcases parse_post L s hlen with ⟨_, _, _, _, x, h, _⟩ | h
  · exact ⟨true, x, h⟩
  · exact ⟨false, .undef, h⟩

/-- C23, scanner alone: no limit on the length of the text. -/
theorem C23_scanner_total (L : Layout) (s : Bytes) :
    (∃ st, parseValue L (s.length + 1) ⟨s, []⟩ = .ok () st) ∨ (∃ e st, parseValue L (s.length + 1) ⟨s, []⟩ = .err e st) := by
  have h := parseValue_post L (s.length + 1) ⟨s, []⟩ (by simp)
  cases hp : parseValue L (s.length + 1) ⟨s, []⟩ with
  | ub u => rw [hp] at h; exact absurd h id
  | diverge => rw [hp] at h; exact absurd h id
  | ok u st => exact .inl ⟨st, rfl⟩
  | err e st => exact .inr ⟨e, st, rfl⟩

/-- an unterminated string in an unterminated array, and a layout in which the literals lie beyond the text -/
example : ∃ b root, parse ⟨7, 100, 200⟩ [91, 34, 92] = .ok ⟨b, root⟩ := C23_total _ _ (by decide)

/-! ### C24 -/

/-- C24, soundness: success means that the text begins, after white space, with a text of the grammar, and the root shows the value it
denotes (keys of at most 65535 bytes, see C12). -/
theorem C24_sound (L : Layout) (s : Bytes) (hlen : s.length ≤ 1073643498) (x : Value) (h : parse L s = .ok ⟨true, x⟩) :
    ∃ w t r j, s = w ++ (t ++ r) ∧ WS w ∧ JText t j ∧ (ShortKeys j → Shows x j) := by
  rcases parse_post L s hlen with ⟨w, t, j, r, y, h1, h2, h3, h4, _, h5⟩ | h1
  · rw [h1] at h
    cases h
    exact ⟨w, t, r, j, h2, h3, h4, h5⟩
  · rw [h1] at h
    cases h

/-- C24, completeness: every text of the grammar, after any white space and before anything that does not extend a number, is accepted
and the root shows the value it denotes. -/
theorem C24_complete (L : Layout) (hL : L.Good) {w t r : Bytes} {j : JV} (hw : WS w) (ht : JText t j)
    (hr : (∃ z, j = .int z) → NoDigit r) (hk : ShortKeys j) (hlen : (w ++ (t ++ r)).length ≤ 1073643498) :
    ∃ x, parse L (w ++ (t ++ r)) = .ok ⟨true, x⟩ ∧ Shows x j := by
  obtain ⟨x, h1, _, h2⟩ := parse_text hw ht hr (.inl hL) (.inr hlen)
  exact ⟨x, h1, h2 hk⟩

example : ∃ x w t r j, parse ⟨100, 0, 50⟩ [91, 93, 33] = .ok ⟨true, x⟩ ∧ [91, 93, 33] = w ++ (t ++ r) ∧ WS w ∧ JText t j ∧ (ShortKeys j → Shows x j) := by
  obtain ⟨x, h, _⟩ := C24_complete ⟨100, 0, 50⟩ (by constructor <;> decide) (w := []) (r := [33]) (by simp [WS]) (.arrNil (w := []) (by simp [WS])) (by simp)
    (.arr (by simp)) (by decide)
  obtain ⟨w, t, r, j, h'⟩ := C24_sound _ _ (by decide) x h
  exact ⟨x, w, t, r, j, h, h'⟩

/-- C24, completeness without limit on the length for values without members. -/
theorem C24_complete_noMembers (L : Layout) (hL : L.Good) {w t r : Bytes} {j : JV} (hw : WS w) (ht : JText t j)
    (hr : (∃ z, j = .int z) → NoDigit r) (hn : NoMembers j) : ∃ x, parse L (w ++ (t ++ r)) = .ok ⟨true, x⟩ ∧ Shows x j := by
  obtain ⟨x, h1, _, h2⟩ := parse_text hw ht hr (.inl hL) (.inl hn)
  exact ⟨x, h1, h2 (NoMembers.shortKeys hn)⟩

example := C24_complete_noMembers ⟨100, 0, 50⟩ (by constructor <;> decide) (w := [32]) (r := [33]) (by simp [WS]) (.arrNil (w := [10]) (by simp [WS])) (by simp)
  (.arr (by simp))

/-- C24, the grammar is unambiguous, so soundness and completeness speak of the same value: a text has at most one value of the grammar
at its beginning. -/
theorem C24_unambiguous {w w' t t' r r' : Bytes} {j j' : JV} (hw : WS w) (hw' : WS w') (h : JText t j) (h' : JText t' j')
    (hr : (∃ z, j = .int z) → NoDigit r) (hr' : (∃ z, j' = .int z) → NoDigit r') (he : w ++ (t ++ r) = w' ++ (t' ++ r')) :
    j = j' ∧ t = t' ∧ r = r' := jtext_unique hw hw' h h' hr hr' he

/-- `{"a":[true,-12]}` is a text of the grammar -/
theorem sample_text : JText [123, 34, 97, 34, 58, 91, 116, 114, 117, 101, 44, 45, 49, 50, 93, 125] (.obj [([97], .arr [.bool true, .int (-12)])]) := by
  have h12 : JText [45, 49, 50] (.int (-12)) := by
    have : wrap256 (-12) = -12 := by decide
    rw [← this]
    refine .int (.neg (n := 12) ⟨by simp, ?_, by simp, rfl⟩)
    intro c hc
    simp only [List.mem_cons, List.not_mem_nil, or_false] at hc
    rcases hc with rfl | rfl <;> (unfold Digit; decide)
  have hw : WS [] := by simp [WS]
  have e1 : Elems [45, 49, 50] [.int (-12)] := Elems.one hw h12 hw
  have e2 : Elems [116, 114, 117, 101, 44, 45, 49, 50] [.bool true, .int (-12)] := Elems.cons hw .true_ hw e1
  have hk : StrBody [97] [97] := .raw (by decide) (by decide) .nil
  exact .obj (Members.one (w := []) (w1 := []) (w2 := []) (w3 := []) hw hk hw hw (.arr e2) hw)

theorem sample_short : ShortKeys (.obj [([97], .arr [.bool true, .int (-12)])]) := by
  refine .obj ?_ ?_
  · intro k j h
    simp only [List.mem_singleton, Prod.mk.injEq] at h
    rw [h.1]; decide
  · intro k j h
    simp only [List.mem_singleton, Prod.mk.injEq] at h
    rw [h.2]
    refine .arr ?_
    intro j hj
    simp only [List.mem_cons, List.not_mem_nil, or_false] at hj
    rcases hj with rfl | rfl
    · exact .bool
    · exact .int

example : ∃ x, parse ⟨100, 0, 50⟩ ([32] ++ ([123, 34, 97, 34, 58, 91, 116, 114, 117, 101, 44, 45, 49, 50, 93, 125] ++ [10])) = .ok ⟨true, x⟩ ∧
    Shows x (.obj [([97], .arr [.bool true, .int (-12)])]) :=
  C24_complete _ (by constructor <;> decide) (by simp [WS]) sample_text (by simp) sample_short (by decide)

/-! ### C25 -/

/-- C25 is false of the code: the text `true` (likewise any text beginning with it) is accepted in one layout and rejected in another. -/
theorem C25_layout_false (L L' : Layout) (hL : L.Good) (hL' : L'.bufEnd ≤ L'.rue) (r : Bytes) :
    parse L ([116, 114, 117, 101] ++ r) = .ok ⟨true, .bool true⟩ ∧ parse L' ([116, 114, 117, 101] ++ r) = .ok ⟨false, .undef⟩ := by
  constructor
  · obtain ⟨x, h1, _, h2⟩ := parse_text (L := L) (w := []) (r := r) (by simp [WS]) .true_ (by simp) (.inl hL) (.inl .bool)
    have := h2 .bool
    cases this
    exact h1
  · have hd : ∀ it : Bytes, dropWs (116 :: it) = 116 :: it := fun it => rfl
    have hlit : haveLit L'.bufEnd L'.rue [114, 117, 101] ⟨[114, 117, 101] ++ r, []⟩ = .ok false ⟨[114, 117, 101] ++ r, []⟩ := by
      simp [haveLit, haveLitLoop, hL']
    have hb : parseBoolean L' ⟨116 :: ([114, 117, 101] ++ r), []⟩ = .err .true_ ⟨[114, 117, 101] ++ r, []⟩ := by
      unfold parseBoolean expectLit
      rw [bind_apply, skipWs_apply]
      simp only [hd]
      rw [bind_apply, haveC_hit]
      simp only [if_true]
      rw [bind_apply, bind_apply, hlit]
      rfl
    have hv : ∀ n, parseValue L' (n + 1) ⟨[116, 114, 117, 101] ++ r, []⟩ = .err .true_ ⟨[114, 117, 101] ++ r, []⟩ := by
      intro n
      have e : [116, 114, 117, 101] ++ r = 116 :: ([114, 117, 101] ++ r) := rfl
      rw [e]
      unfold parseValue
      rw [bind_apply, parseObject_miss _ _ (by rw [hd]; simp)]
      simp only [hd, Bool.false_eq_true, if_false]
      rw [bind_apply, parseArray_miss _ _ (by rw [hd]; simp)]
      simp only [hd, Bool.false_eq_true, if_false]
      rw [bind_apply, parseString_miss _ _ (by rw [hd]; simp)]
      simp only [hd, Bool.false_eq_true, if_false]
      rw [bind_apply, hb]
    unfold parse
    rw [hv]
    rfl

example : parse ⟨100, 0, 50⟩ [116, 114, 117, 101] = .ok ⟨true, .bool true⟩ ∧ parse ⟨100, 500, 550⟩ [116, 114, 117, 101] = .ok ⟨false, .undef⟩ :=
  C25_layout_false ⟨100, 0, 50⟩ ⟨100, 500, 550⟩ (by constructor <;> decide) (by decide) []

/-- C25, what holds of every layout: the outcome is that of a good layout, or else failure; failures due to the layout need a `t` or `f`
in the text. -/
theorem C25_layout_partial (L G : Layout) (hG : G.Good) (s : Bytes) (hlen : s.length ≤ 1073643498) :
    parse L s = parse G s ∨ ((116 ∈ s ∨ 102 ∈ s) ∧ parse L s = .ok ⟨false, .undef⟩) := by
  rcases parseValue_agree L hG (s.length + 1) ⟨s, []⟩ (by simp) with h | ⟨h, e, st', he⟩
  · left
    unfold parse
    rw [h]
  · right
    refine ⟨h, ?_⟩
    rcases parse_post L s hlen with ⟨w, t, j, r, y, h1, _⟩ | h1
    · exfalso
      unfold parse at h1
      rw [he] at h1
      simp only at h1
      cases hc : cbRun CbState.init st'.ev with
      | ok cb => rw [hc] at h1; simp only [Res.ok_bind, Res.ok.injEq] at h1; cases h1
      | throw _ => rw [hc] at h1; cases h1
      | ub _ => rw [hc] at h1; cases h1
      | diverge => rw [hc] at h1; cases h1
      | exit _ => rw [hc] at h1; cases h1
    · exact h1

example := C25_layout_partial ⟨100, 500, 550⟩ ⟨100, 0, 50⟩ (by constructor <;> decide) [91, 116, 114, 117, 101, 93] (by decide)

/-- C25, texts without the letters `t` and `f`: same outcome in all layouts. -/
theorem C25_no_letters_partial (L L' : Layout) (s : Bytes) (hlen : s.length ≤ 1073643498) (ht : 116 ∉ s) (hf : 102 ∉ s) :
    parse L s = parse L' s := by
  rcases C25_layout_partial L ⟨7, 0, 3⟩ good_layout s hlen with h | ⟨h | h, _⟩
  · rcases C25_layout_partial L' ⟨7, 0, 3⟩ good_layout s hlen with h' | ⟨h' | h', _⟩
    · rw [h, h']
    · exact absurd h' ht
    · exact absurd h' hf
  · exact absurd h ht
  · exact absurd h hf

example := C25_no_letters_partial ⟨100, 500, 550⟩ ⟨100, 0, 50⟩ [91, 49, 93] (by decide) (by decide) (by decide)

/-- C25, texts that denote a value without booleans (its strings may contain any letters): accepted in every layout. -/
theorem C25_boolean_free_partial (L : Layout) {w t r : Bytes} {j : JV} (hw : WS w) (ht : JText t j) (hr : (∃ z, j = .int z) → NoDigit r)
    (hb : BoolFree j) (hk : ShortKeys j) (hlen : (w ++ (t ++ r)).length ≤ 1073643498) :
    ∃ x, Shows x j ∧ ∀ L', parse L' (w ++ (t ++ r)) = .ok ⟨true, x⟩ ∧ parse L (w ++ (t ++ r)) = .ok ⟨true, x⟩ := by
  obtain ⟨x, h1, _, h2⟩ := parse_text (L := L) hw ht hr (.inr hb) (.inr hlen)
  obtain ⟨g, g1, _, _⟩ := parse_text (L := ⟨7, 0, 3⟩) hw ht hr (.inr hb) (.inr hlen)
  have key : ∀ L', parse L' (w ++ (t ++ r)) = .ok ⟨true, g⟩ := by
    intro L'
    obtain ⟨y, y1, _⟩ := parse_text (L := L') hw ht hr (.inr hb) (.inr hlen)
    rcases C25_layout_partial L' ⟨7, 0, 3⟩ good_layout _ hlen with h | ⟨_, h⟩
    · rw [h, g1]
    · rw [y1] at h; cases h
  have hx : x = g := by
    have := key L
    rw [h1] at this
    cases this
    rfl
  subst hx
  exact ⟨x, h2 hk, fun L' => ⟨key L', h1⟩⟩

example := C25_boolean_free_partial ⟨100, 500, 550⟩ (w := []) (r := [33]) (by simp [WS]) (.arrNil (w := []) (by simp [WS])) (by simp)
  (.arr (by simp)) (.arr (by simp)) (by decide)

/-! ### C26 -/

/-- C26. Every byte string survives printing and parsing, in every layout. -/
theorem C26_string_round_trip (L : Layout) (s : Bytes) : parse L (Value.print (.str s)) = .ok ⟨true, .str s⟩ := by
  obtain ⟨x, h1, _, h2⟩ := parse_text (L := L) (w := []) (r := []) (by simp [WS]) (printStr_text s) (by simp) (.inr .str) (.inl .str)
  have := h2 .str
  cases this
  rw [Value.print]
  simpa using h1

/-- NUL, quote, backslash, line feed and a byte above 0x7f -/
example : Value.print (.str [0, 34, 92, 10, 200]) = [34, 92, 117, 48, 48, 48, 48, 92, 34, 92, 92, 92, 117, 48, 48, 48, 65, 200, 34] ∧
    parse ⟨9, 50, 60⟩ (Value.print (.str [0, 34, 92, 10, 200])) = .ok ⟨true, .str [0, 34, 92, 10, 200]⟩ :=
  ⟨by rw [Value.print]; decide, C26_string_round_trip _ _⟩

/-! ### C27 -/

/-- C27 is false of the code: an object with a member does not survive, unless its first key happens to begin with a quote or a brace.
Keys are printed without quotes, so the parser rejects the output. -/
theorem C27_objects_false (L : Layout) (m : SMap Value) (k : Bytes) (v : Value) (rest : List (Bytes × Value))
    (hm : SMap.bindings m = (k, v) :: rest) {w k' : Bytes} {c : UInt8} (hk : k = w ++ c :: k') (hw : WS w) (hc : ¬ WS [c]) (h1 : c ≠ 34)
    (h2 : c ≠ 125) : parse L (Value.print (.obj m)) = .ok ⟨false, .undef⟩ := by
  rw [print_obj, hm]
  simp only [List.map_cons, Value.printMembers, Bool.not_true, Bool.false_eq_true, if_false, List.nil_append]
  have hws : isWs c = false := by
    by_contra h
    apply hc
    intro x hx
    simp only [List.mem_singleton] at hx
    subst hx
    exact (isWs_iff x).mp (by simpa using h)
  have := parse_object_bad_key L (k := k) (c := c)
    (r := [58] ++ Value.print v ++ Value.printMembers false (rest.map fun kv => (kv.1, Value.print kv.2)) ++ [10, 125])
    (by rw [hk]; simp only [List.append_assoc, List.cons_append]; rw [dropWs_cons hw hws]; rfl) h1 h2
  simpa using this

/-- parsing `{"a":1}`, printing the result and parsing again fails -/
example : ∃ x, parse ⟨100, 0, 50⟩ [123, 34, 97, 34, 58, 49, 125] = .ok ⟨true, x⟩ ∧
    Value.print x = [123, 10, 97, 58, 49, 10, 125] ∧ parse ⟨100, 0, 50⟩ (Value.print x) = .ok ⟨false, .undef⟩ := by
  have h1 : JText [49] (.int 1) := by
    have : wrap256 1 = 1 := by decide
    rw [← this]
    exact .int (.nonneg (n := 1) ⟨by simp, by simp [Digit], by simp, rfl⟩)
  have hw : WS [] := by simp [WS]
  have hk : StrBody [97] [97] := .raw (by decide) (by decide) .nil
  have ht : JText [123, 34, 97, 34, 58, 49, 125] (.obj [([97], .int 1)]) :=
    .obj (Members.one (w := []) (w1 := []) (w2 := []) (w3 := []) hw hk hw hw h1 hw)
  have hs : ShortKeys (.obj [([97], .int 1)]) := by
    refine .obj ?_ ?_ <;> intro k j h <;> simp only [List.mem_singleton, Prod.mk.injEq] at h
    · rw [h.1]; decide
    · rw [h.2]; exact .int
  obtain ⟨x, hx, _, hsh⟩ := parse_text (L := ⟨100, 0, 50⟩) (w := []) (r := []) hw ht (by simp) (.inl (by constructor <;> decide)) (.inr (by decide))
  refine ⟨x, by simpa using hx, ?_⟩
  have hsh := hsh hs
  cases hsh with
  | @obj m _ a1 a2 a3 a4 a5 a6 =>
    have hb : ∃ v, SMap.bindings m = [([97], v)] := by
      have e : (([([97], JV.int 1)] : List (Bytes × JV)).map Prod.fst).dedup = [[97]] := by decide
      rw [e] at a2
      have := List.perm_singleton.mp a2
      cases hm : SMap.bindings m with
      | nil => rw [hm] at this; simp at this
      | cons a l =>
        rw [hm] at this
        simp only [List.map_cons, List.cons.injEq, List.map_eq_nil_iff] at this
        obtain ⟨k, v⟩ := a
        exact ⟨v, by rw [this.2]; simp only [List.cons.injEq, Prod.mk.injEq, and_true]; exact this.1⟩
    obtain ⟨v, hb⟩ := hb
    have hv := a6 [97] (.int 1) v rfl (a3 [97] v (by rw [hb]; simp))
    cases hv
    refine ⟨?_, C27_objects_false _ m [97] (.int 1) [] hb (w := []) (k' := []) rfl (by simp [WS]) (by simp [WS]) (by decide) (by decide)⟩
    rw [print_obj, hb]
    simp only [List.map_cons, List.map_nil, Value.printMembers]
    rw [Value.print, Value.s256Print, if_neg (by decide), Value.natDec]
    decide

/-- C27, the part that holds: values in which no object has a member (arrays, strings, booleans, integers of at most 256 bits, empty
objects, nested to any depth) print to a text that denotes them and is read back as an equal value. -/
theorem C27_round_trip_partial (L : Layout) (hL : L.Good) {v : Value} {j : JV} (hv : Shows v j) (hn : NoMembers j) (hr : InRange j) :
    JText (Value.print v) j ∧ ∃ x, parse L (Value.print v) = .ok ⟨true, x⟩ ∧ Shows x j := by
  have ht := print_text hv hn hr
  obtain ⟨x, h1, _, h2⟩ := parse_text (L := L) (w := []) (r := []) (by simp [WS]) ht (by simp [NoDigit]) (.inl hL) (.inl hn)
  exact ⟨ht, x, by simpa using h1, h2 (NoMembers.shortKeys hn)⟩

theorem sample_mixed : Shows (.arr [.str [120], .int (-3)]) (.arr [.str [120], .int (-3)]) := .arr rfl (by
  intro i v j h1 h2
  match i, h1, h2 with
  | 0, h1, h2 => cases h1; cases h2; exact .str
  | 1, h1, h2 => cases h1; cases h2; exact .int)

example := C27_round_trip_partial ⟨100, 0, 50⟩ (by constructor <;> decide) sample_mixed
  (.arr (by simp only [List.forall_mem_cons]; exact ⟨.str, .int, by simp⟩)) (.arr (by simp only [List.forall_mem_cons]; exact ⟨.str, .int (by decide), by simp⟩))

/-- C27, object-free values: the very same value. -/
theorem C27_object_free_partial (L : Layout) (hL : L.Good) {v : Value} {j : JV} (hv : Shows v j) (hf : ObjFree j) (hr : InRange j) :
    parse L (Value.print v) = .ok ⟨true, v⟩ := by
  obtain ⟨_, x, h1, h2⟩ := C27_round_trip_partial L hL hv (ObjFree.noMembers hf) hr
  rw [shows_unique hv hf x h2] at h1
  exact h1

/-- `[[],"x",-3,false]` -/
example : parse ⟨100, 0, 50⟩ (Value.print (.arr [.arr [], .str [120], .int (-3), .bool false])) =
    .ok ⟨true, .arr [.arr [], .str [120], .int (-3), .bool false]⟩ := by
  refine C27_object_free_partial _ (by constructor <;> decide) (j := .arr [.arr [], .str [120], .int (-3), .bool false]) ?_ ?_ ?_
  · refine .arr rfl ?_
    intro i v j h1 h2
    match i, h1, h2 with
    | 0, h1, h2 => cases h1; cases h2; exact .arr rfl (by simp)
    | 1, h1, h2 => cases h1; cases h2; exact .str
    | 2, h1, h2 => cases h1; cases h2; exact .int
    | 3, h1, h2 => cases h1; cases h2; exact .bool
  · refine .arr ?_
    intro j hj
    simp only [List.mem_cons, List.not_mem_nil, or_false] at hj
    rcases hj with rfl | rfl | rfl | rfl
    · exact .arr (by simp)
    · exact .str
    · exact .int
    · exact .bool
  · refine .arr ?_
    intro j hj
    simp only [List.mem_cons, List.not_mem_nil, or_false] at hj
    rcases hj with rfl | rfl | rfl | rfl
    · exact .arr (by simp)
    · exact .str
    · exact .int (by decide)
    · exact .bool

/-! ### C28 -/

/-- C28. An integer literal of any length is read as the integer it denotes, reduced to 256 bits of magnitude; below 2^256 exactly. -/
theorem C28_integers (L : Layout) {t r : Bytes} {z : Int} (h : IntText t z) (hr : NoDigit r) :
    parse L (t ++ r) = .ok ⟨true, .int (wrap256 z)⟩ ∧ (z.natAbs < 2 ^ 256 → parse L (t ++ r) = .ok ⟨true, .int z⟩) := by
  obtain ⟨x, h1, _, h2⟩ := parse_text (L := L) (w := []) (r := r) (by simp [WS]) (.int h) (fun _ => hr) (.inr .int) (.inl .int)
  have := h2 .int
  cases this
  refine ⟨h1, fun hz => ?_⟩
  rw [wrap256_of_lt hz] at h1
  exact h1

/-- C28. Printing gives a decimal text of the integer, the only one apart from `-0`, and (below 2^256) it parses back. -/
theorem C28_print (L : Layout) (z : Int) : IntText (Value.print (.int z)) z ∧
    (∀ t, IntText t z → t = Value.print (.int z) ∨ (z = 0 ∧ t = [45, 48])) ∧
    (z.natAbs < 2 ^ 256 → parse L (Value.print (.int z)) = .ok ⟨true, .int z⟩) := by
  have hp : Value.print (.int z) = Value.s256Print z := by rw [Value.print]
  rw [hp]
  refine ⟨print_int_text z, ?_, ?_⟩
  · intro t ht
    cases ht with
    | @nonneg _ n h =>
      left
      rw [natText_unique h]
      unfold Value.s256Print
      rw [if_neg (by omega)]
      rfl
    | @neg u n h =>
      by_cases hn : n = 0
      · right
        subst hn
        refine ⟨rfl, ?_⟩
        rw [natText_unique h, Value.natDec]
        rfl
      · left
        rw [natText_unique h]
        unfold Value.s256Print
        rw [if_pos (by omega)]
        simp
  · intro hz
    have := (C28_integers L (print_int_text z) (r := []) (by simp [NoDigit])).2 hz
    simpa using this

/-- 2^256 + 5 is reduced to 5 -/
example (L : Layout) : parse L (Value.natDec (2 ^ 256 + 5) ++ [93]) = .ok ⟨true, .int 5⟩ := by
  have := (C28_integers L (.nonneg (natDec_text (2 ^ 256 + 5))) (r := [93]) (by
    intro c hc; simp at hc; subst hc; exact not_digit_93)).1
  have e : wrap256 ((2 ^ 256 + 5 : Nat) : Int) = 5 := by decide
  rw [e] at this
  exact this

/-! ### C29 -/

/-- C29. After parsing an object text: a key is bound to the value of the last member with that key, other keys are absent, and the
size is the number of distinct keys. -/
theorem C29_members (L : Layout) (hL : L.Good) {w t r : Bytes} {ms : List (Bytes × JV)} (hw : WS w) (ht : JText t (.obj ms))
    (hk : ShortKeys (.obj ms)) (hlen : (w ++ (t ++ r)).length ≤ 1073643498) :
    ∃ m, parse L (w ++ (t ++ r)) = .ok ⟨true, .obj m⟩ ∧ SMap.size m = (ms.map Prod.fst).dedup.length ∧
      (∀ k, lastMember ms k = none → SMap.find m k = .ok none ∧ Value.index (.obj m) k = .throw .invalidStringMapKey) ∧
      (∀ k j, lastMember ms k = some j → ∃ v, SMap.find m k = .ok (some v) ∧ Value.index (.obj m) k = .ok v ∧ Shows v j) := by
  obtain ⟨x, h1, h2⟩ := C24_complete L hL hw ht (by simp) hk hlen
  cases h2 with
  | @obj m _ a1 a2 a3 a4 a5 a6 =>
    refine ⟨m, h1, a1, ?_, ?_⟩
    · intro k hk
      refine ⟨a4 k hk, ?_⟩
      simp [Value.index, SMap.at_, a4 k hk]
    · intro k j hk
      obtain ⟨v, hv⟩ := a5 k j hk
      refine ⟨v, hv, ?_, a6 k j v hk hv⟩
      simp [Value.index, SMap.at_, hv]

/-- `lastMember` of a list with a repeated key -/
example : lastMember [([97], .int 1), ([98], .int 2), ([97], .int 3)] [97] = some (.int 3) := rfl

/-! ### C30 -/

/-- C30. Arrays print their elements in index order, separated by commas. -/
theorem C30_array (vs : List Value) : Value.print (.arr vs) = [91] ++ [44].intercalate (vs.map Value.print) ++ [93] := by
  rw [print_arr, printElems_eq]
  rfl

/-- C30. Objects print `key:value` for every key, each exactly once, separated by commas: for every map made by any history over keys
of at most 65535 bytes. -/
theorem C30_object (dflt : Value) (size : Nat) (ops : List (SOp Value)) (hs : size ≤ 1431524664) (hl : ops.length ≤ 1073643498)
    (hk : ∀ op ∈ ops, (skey op).length ≤ 65535) :
    ∃ m rs, ∃ l : List (Bytes × Value), SMap.run dflt (SMap.new size) ops = .ok (m, rs) ∧ l.Perm (sruns dflt [] ops).1 ∧ (l.map Prod.fst).Nodup ∧
      Value.print (.obj m) = [123, 10] ++ [44].intercalate (l.map fun kv => kv.1 ++ 58 :: Value.print kv.2) ++ [10, 125] := by
  obtain ⟨t, h1, hin, R, hle⟩ := SMap.run_sim (dflt := dflt) ops _ _ (SRel.new hs) (by simpa using hl)
    (fun op ho => by have := hk op ho; omega)
  refine ⟨t, _, SMap.bindings t, h1, R.abs, ?_, ?_⟩
  · exact (R.abs.map Prod.fst).nodup_iff.mpr R.functional
  · rw [print_obj, printMembers_eq, List.map_map]
    rfl

example := C30_object .undef 4 [.assign [97] (.int 1), .assign [98] (.bool true), .assign [97] (.int 2)] (by decide) (by decide) (by simp [skey])

/-- C30. The same for objects that come out of the parser. -/
theorem C30_parsed_object {m : SMap Value} {ms : List (Bytes × JV)} (h : Shows (.obj m) (.obj ms)) :
    ∃ l : List (Bytes × Value), (l.map Prod.fst).Perm (ms.map Prod.fst).dedup ∧ (∀ k v, (k, v) ∈ l → SMap.find m k = .ok (some v)) ∧
      Value.print (.obj m) = [123, 10] ++ [44].intercalate (l.map fun kv => kv.1 ++ 58 :: Value.print kv.2) ++ [10, 125] := by
  cases h with
  | @obj m _ a1 a2 a3 a4 a5 a6 =>
    refine ⟨SMap.bindings m, a2, a3, ?_⟩
    rw [print_obj, printMembers_eq, List.map_map]
    rfl

example : Value.print (.arr [.bool true, .str [97], .arr []]) = [91, 116, 114, 117, 101, 44, 34, 97, 34, 44, 91, 93, 93] := by
  rw [C30_array]
  simp only [List.map_cons, List.map_nil]
  rw [C30_array, Value.print, Value.print]
  decide

/-! ### C31 -/

/-- C31. On failure the root is undefined, on success it contains no undefined value at any depth (in particular is defined). -/
theorem C31_root (L : Layout) (s : Bytes) (hlen : s.length ≤ 1073643498) (b : Bool) (root : Value) (h : parse L s = .ok ⟨b, root⟩) :
    (b = false → root = .undef) ∧ (b = true → NoUndef root) := by
  rcases parse_post L s hlen with ⟨w, t, j, r, x, h1, _, _, _, hu, _⟩ | h1
  · rw [h1] at h
    cases h
    exact ⟨by simp, fun _ => hu.noUndef⟩
  · rw [h1] at h
    cases h
    exact ⟨fun _ => rfl, by simp⟩

/-- both cases occur -/
example : ¬ NoUndef .undef ∧ parse ⟨9, 50, 60⟩ [91] = .ok ⟨false, .undef⟩ ∧ parse ⟨9, 50, 60⟩ [34, 34] = .ok ⟨true, .str []⟩ := by
  refine ⟨fun h => (by cases h), rfl, ?_⟩
  have := C26_string_round_trip ⟨9, 50, 60⟩ []
  rw [Value.print] at this
  exact this

/-! ### C32 -/

/-- C32 is false of the code: whatever follows a complete value is ignored. -/
theorem C32_trailing_false (L : Layout) (hL : L.Good) {t r : Bytes} {j : JV} (ht : JText t j) (hr : (∃ z, j = .int z) → NoDigit r)
    (hlen : (t ++ r).length ≤ 1073643498) : ∃ x, parse L (t ++ r) = .ok ⟨true, x⟩ := by
  obtain ⟨x, h1, _⟩ := parse_text (L := L) (w := []) (by simp [WS]) ht hr (.inl hL) (.inr (by simpa using hlen))
  exact ⟨x, by simpa using h1⟩

/-- `[]]}garbage` is accepted -/
example : ∃ x, parse ⟨100, 0, 50⟩ ([91, 93] ++ [93, 125, 103, 97, 114, 98, 97, 103, 101]) = .ok ⟨true, x⟩ :=
  C32_trailing_false _ (by constructor <;> decide) (.arrNil (w := []) (by simp [WS])) (by simp) (by decide)

/-- C32, the part that holds: a text that does not begin (after white space) with a value of the grammar is rejected. -/
theorem C32_reject_partial (L : Layout) (s : Bytes) (hlen : s.length ≤ 1073643498)
    (h : ∀ w t r j, s = w ++ (t ++ r) → WS w → ¬ JText t j) : parse L s = .ok ⟨false, .undef⟩ := by
  rcases parse_post L s hlen with ⟨w, t, j, r, x, _, h2, h3, h4, _⟩ | h1
  · exact absurd h4 (h w t r j h2 h3)
  · exact h1

example : parse ⟨100, 0, 50⟩ [10, 58] = .ok ⟨false, .undef⟩ := by
  refine C32_reject_partial _ _ (by decide) ?_
  intro w t r j he hw ht
  obtain ⟨c, cs, rfl, hc, _⟩ := jtext_head ht
  have := congrArg dropWs he
  rw [List.cons_append, dropWs_cons hw hc] at this
  have e : dropWs [10, 58] = [58] := rfl
  rw [e] at this
  simp only [List.cons.injEq] at this
  obtain ⟨rfl, _⟩ := this
  cases ht with
  | int h =>
    cases h with
    | nonneg h =>
      obtain ⟨c, cs, hc, hd⟩ := natText_head h
      simp only [List.cons.injEq] at hc
      obtain ⟨rfl, _⟩ := hc
      exact absurd hd.2 (by decide)

/-! ### C33 -/

/-- C33 is false of the code: a subscript on a value that is neither object nor array gives the integer 5, not the undefined value. -/
theorem C33_other_kinds_false (v : Value) (hv : (∀ m, v ≠ .obj m) ∧ (∀ vs, v ≠ .arr vs)) (k : Bytes) (i : Int) :
    Value.index v k = .ok (.int 5) ∧ Value.indexInt v i = .ok (.int 5) := by
  cases v with
  | obj m => exact absurd rfl (hv.1 m)
  | arr vs => exact absurd rfl (hv.2 vs)
  | _ => exact ⟨rfl, rfl⟩

example : Value.indexInt (.str [97]) 0 = .ok (.int 5) := (C33_other_kinds_false (.str [97]) (by simp) [] 0).2

/-- C33, arrays: `v[i]` is element `i`; any other `int`, negative ones included, throws. -/
theorem C33_array_partial (vs : List Value) (hl : vs.length ≤ 2 ^ 63) (i : Int) (hi : -2 ^ 31 ≤ i ∧ i < 2 ^ 31) :
    (∀ (n : Nat) v, i = n → vs[n]? = some v → Value.indexInt (.arr vs) i = .ok v) ∧
    ((i < 0 ∨ (vs.length : Int) ≤ i) → Value.indexInt (.arr vs) i = .throw .invalidVectorIndex) := by
  constructor
  · intro n v hn hv
    have e : (i % 18446744073709551616).toNat = n := by omega
    simp [Value.indexInt, e, hv]
  · intro h
    have : vs.length ≤ (i % 18446744073709551616).toNat := by omega
    simp [Value.indexInt, List.getElem?_eq_none this]

/-- C33, objects: `v[key]` is the bound value or throws, for every map made by any history over keys of at most 65535 bytes. -/
theorem C33_object_partial (dflt : Value) (size : Nat) (ops : List (SOp Value)) (hs : size ≤ 1431524664) (hl : ops.length ≤ 1073643498)
    (hk : ∀ op ∈ ops, (skey op).length ≤ 65535) :
    ∃ m rs, SMap.run dflt (SMap.new size) ops = .ok (m, rs) ∧ ∀ k, Value.index (.obj m) k =
      match (sruns dflt [] ops).1.lookup k with | some v => .ok v | none => .throw .invalidStringMapKey := by
  obtain ⟨t, h1, hin, R, hle⟩ := SMap.run_sim (dflt := dflt) ops _ _ (SRel.new hs) (by simpa using hl)
    (fun op ho => by have := hk op ho; omega)
  exact ⟨t, _, h1, fun k => by
    show SMap.at_ t k = _
    rw [SMap.at_sim R k]
    cases (sruns dflt [] ops).1.lookup k <;> rfl⟩

example : Value.indexInt (.arr [.bool true]) 0 = .ok (.bool true) ∧ Value.indexInt (.arr [.bool true]) (-1) = .throw .invalidVectorIndex :=
  ⟨(C33_array_partial [.bool true] (by decide) 0 (by decide)).1 0 _ rfl rfl,
   (C33_array_partial [.bool true] (by decide) (-1) (by decide)).2 (.inl (by decide))⟩

/-! ### C35 -/

/-- UTF-8 of a code point below 2^16. -/
def utf8 (n : Nat) : Bytes :=
  if n < 128 then [n.toUInt8]
  else if n < 2048 then [(192 + n / 64).toUInt8, (128 + n % 64).toUInt8]
  else [(224 + n / 4096).toUInt8, (128 + n / 64 % 64).toUInt8, (128 + n % 64).toUInt8]

/-- C35, full characterisation: `\uXXXX` is decoded to the low byte of XXXX. -/
theorem C35_escape (L : Layout) {h1 h2 h3 h4 : UInt8} {n1 n2 n3 n4 : Nat} (e1 : hexOf h1 = some n1) (e2 : hexOf h2 = some n2)
    (e3 : hexOf h3 = some n3) (e4 : hexOf h4 = some n4) :
    parse L [34, 92, 117, h1, h2, h3, h4, 34] = .ok ⟨true, .str [(n1 * 4096 + n2 * 256 + n3 * 16 + n4).toUInt8]⟩ := by
  have ht : JText [34, 92, 117, h1, h2, h3, h4, 34] (.str [(n1 * 4096 + n2 * 256 + n3 * 16 + n4).toUInt8]) :=
    .str (.uni e1 e2 e3 e4 .nil)
  obtain ⟨x, g1, _, g2⟩ := parse_text (L := L) (w := []) (r := []) (by simp [WS]) ht (by simp) (.inr .str) (.inl .str)
  have := g2 .str
  cases this
  simpa using g1

/-- C35 is false of the code for every code point from 0x80 on. -/
theorem C35_above_7f_false (L : Layout) {h1 h2 h3 h4 : UInt8} {n1 n2 n3 n4 : Nat} (e1 : hexOf h1 = some n1) (e2 : hexOf h2 = some n2)
    (e3 : hexOf h3 = some n3) (e4 : hexOf h4 = some n4) (hn : 128 ≤ n1 * 4096 + n2 * 256 + n3 * 16 + n4) :
    parse L [34, 92, 117, h1, h2, h3, h4, 34] ≠ .ok ⟨true, .str (utf8 (n1 * 4096 + n2 * 256 + n3 * 16 + n4))⟩ := by
  rw [C35_escape L e1 e2 e3 e4]
  intro h
  simp only [Res.ok.injEq, Parsed.mk.injEq, Value.str.injEq, true_and] at h
  have := congrArg List.length h
  unfold utf8 at this
  rw [if_neg (by omega)] at this
  split at this <;> simp at this

/-- C35, the part that holds: ASCII code points. -/
theorem C35_ascii_partial (L : Layout) {h1 h2 h3 h4 : UInt8} {n1 n2 n3 n4 : Nat} (e1 : hexOf h1 = some n1) (e2 : hexOf h2 = some n2)
    (e3 : hexOf h3 = some n3) (e4 : hexOf h4 = some n4) (hn : n1 * 4096 + n2 * 256 + n3 * 16 + n4 < 128) :
    parse L [34, 92, 117, h1, h2, h3, h4, 34] = .ok ⟨true, .str (utf8 (n1 * 4096 + n2 * 256 + n3 * 16 + n4))⟩ := by
  rw [C35_escape L e1 e2 e3 e4]
  unfold utf8
  rw [if_pos hn]

/-- `é` (é) becomes the byte 0xe9 instead of 0xc3 0xa9; `A` is `A` -/
example (L : Layout) : parse L [34, 92, 117, 48, 48, 101, 57, 34] = .ok ⟨true, .str [0xe9]⟩ ∧ utf8 0xe9 = [0xc3, 0xa9] ∧
    parse L [34, 92, 117, 48, 48, 52, 49, 34] = .ok ⟨true, .str [65]⟩ :=
  ⟨C35_escape L (n1 := 0) (n2 := 0) (n3 := 14) (n4 := 9) rfl rfl rfl rfl, by decide,
   C35_escape L (n1 := 0) (n2 := 0) (n3 := 4) (n4 := 1) rfl rfl rfl rfl⟩

/-! ### C62 -/

theorem hexUp_ge (n : Nat) (h : n < 16) : 32 ≤ Value.hexUp n := by
  have : ∀ n < 16, 32 ≤ Value.hexUp n := by decide
  exact this n h

theorem printChar_clean (c : UInt8) : ∀ b ∈ Value.printChar c, 32 ≤ b := by
  intro b hb
  unfold Value.printChar at hb
  split at hb
  · rename_i h
    rcases h with rfl | rfl <;> simp at hb <;> rcases hb with rfl | rfl <;> decide
  · split at hb
    · rename_i h
      have hc : c.toNat < 32 := by simpa [UInt8.lt_iff_toNat_lt] using h
      simp only [List.mem_cons, List.not_mem_nil, or_false] at hb
      rcases hb with rfl | rfl | rfl | rfl | rfl | rfl
      · decide
      · decide
      · decide
      · decide
      · exact hexUp_ge _ (by omega)
      · exact hexUp_ge _ (by omega)
    · rename_i h
      simp only [List.mem_singleton] at hb
      subst hb
      exact UInt8.not_lt.mp h

/-- C62, strings: whatever bytes a string consists of, its printed form has no byte below 0x20. -/
theorem C62_strings (s : Bytes) : ∀ b ∈ Value.print (.str s), 32 ≤ b := by
  rw [Value.print]
  intro b hb
  simp only [Value.printStr, List.mem_append, List.mem_cons, List.mem_flatMap, List.not_mem_nil, or_false] at hb
  rcases hb with (rfl | ⟨c, _, hc⟩) | rfl
  · decide
  · exact printChar_clean c b hc
  · decide

/-- C62, values without objects: the printed form is a single line without control characters. -/
theorem C62_object_free_partial {v : Value} {j : JV} (hv : Shows v j) (hj : ObjFree j) : ∀ b ∈ Value.print v, 32 ≤ b := by
  induction hv with
  | @int z =>
    rw [Value.print]
    have hd : ∀ ds n, NatText ds n → ∀ b ∈ ds, (32 : UInt8) ≤ b := by
      intro ds n h b hb
      have := h.2.1 b hb
      rw [UInt8.le_iff_toNat_le]
      have h1 := this.1
      have : (32 : UInt8).toNat = 32 := rfl
      omega
    intro b hb
    have hz := print_int_text z
    generalize Value.s256Print z = tx at hz hb
    cases hz with
    | nonneg h => exact hd _ _ h b hb
    | neg h =>
      simp only [List.mem_cons] at hb
      rcases hb with rfl | hb
      · decide
      · exact hd _ _ h b hb
  | @bool b => cases b <;> rw [Value.print] <;> decide
  | str => exact C62_strings _
  | @arr vs js hl hsh ih =>
    cases hj with
    | arr hj =>
      rw [print_arr]
      intro b hb
      have hall : ∀ e ∈ vs.map Value.print, ∀ b ∈ e, (32 : UInt8) ≤ b := by
        intro e he
        obtain ⟨v, hv, rfl⟩ := List.mem_map.mp he
        obtain ⟨i, hi⟩ := List.mem_iff_getElem?.mp hv
        have hlt : i < js.length := by
          have := (List.getElem?_eq_some_iff.mp hi).1
          omega
        exact ih i v js[i] hi (List.getElem?_eq_getElem hlt) (hj _ (List.getElem_mem _))
      have hpe : ∀ (es : List Bytes) (n : Nat), (∀ e ∈ es, ∀ b ∈ e, (32 : UInt8) ≤ b) → ∀ b ∈ Value.printElems n es, (32 : UInt8) ≤ b := by
        intro es
        induction es with
        | nil => intro n _ b hb; simp [Value.printElems] at hb
        | cons e es ihe =>
          intro n h b hb
          simp only [Value.printElems, List.mem_append] at hb
          rcases hb with (hb | hb) | hb
          · split at hb
            · simp at hb; subst hb; decide
            · simp at hb
          · exact h e (by simp) b hb
          · exact ihe (n + 1) (fun e' he' => h e' (by simp [he'])) b hb
      simp only [List.cons_append, List.mem_cons, List.mem_append, List.not_mem_nil, or_false] at hb
      rcases hb with rfl | hb | rfl
      · decide
      · exact hpe _ _ hall b hb
      · decide
  | obj => cases hj

example := C62_object_free_partial sample_mixed (.arr (by simp only [List.forall_mem_cons]; exact ⟨.str, .int, by simp⟩))

/-- C62 is false of the code for objects: line feeds are printed after the opening and before the closing brace. -/
theorem C62_objects_false (m : SMap Value) : (10 : UInt8) ∈ Value.print (.obj m) := by
  rw [Value.print]
  simp

example : Value.print (.arr [.str [10, 34], .int (-5)]) = [91, 34, 92, 117, 48, 48, 48, 65, 92, 34, 34, 44, 45, 53, 93] ∧
    ∃ j, Shows (.arr [.str [10, 34], .int (-5)]) j ∧ ObjFree j :=
  ⟨by simp [Value.print, Value.printElems, Value.printStr, Value.printChar, Value.hexUp, Value.s256Print, Value.natDec],
   .arr [.str [10, 34], .int (-5)], .arr rfl (by
     intro i v j h1 h2
     match i with
     | 0 => simp at h1 h2; subst h1; subst h2; exact .str
     | 1 => simp at h1 h2; subst h1; subst h2; exact .int
     | i + 2 => simp at h1), .arr (by simp; exact ⟨.str, .int⟩)⟩

end Eni.Props
