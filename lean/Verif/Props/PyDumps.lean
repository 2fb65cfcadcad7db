import Verif.Model.PyDumps
import Verif.Props.Cli
import Verif.Props.EniTypes
/-!
# C135: strings that Python wrote reach the operation unchanged
-/
namespace Eni.Props
open Spec Base Json Cli PyJson

/-- The bytes of a text in UTF-8. -/
def textBytes (s : List Char) : Bytes := s.flatMap String.utf8EncodeChar

/-- What arrives of a character: the low byte, or the low bytes of its surrogates. -/
def lowOf (c : Char) : Bytes :=
  if c.toNat < 65536 then [c.toNat.toUInt8]
  else [((c.toNat - 65536) / 1024).toUInt8, ((c.toNat - 65536) % 1024).toUInt8]

/-- What arrives of an element. -/
def arrives : Atom → JV
  | .int z => .int (wrap256 z)
  | .bool b => .bool b
  | .str s => .str (s.flatMap lowOf)

theorem hexLow_hexOf (d : Nat) (h : d < 16) : hexOf (hexLow d) = some d := by
  have : ∀ d : Fin 16, hexOf (hexLow d.val) = some d.val := by decide
  exact this ⟨d, h⟩

theorem byte_eq {a b : Nat} (h : a % 256 = b % 256) : a.toUInt8 = b.toUInt8 := by
  apply UInt8.toNat_inj.mp
  simpa using h

theorem esc4_body {b s : Bytes} (n : Nat) (hn : n < 65536) (h : StrBody b s) : StrBody (esc4 n ++ b) (n.toUInt8 :: s) := by
  have := StrBody.uni (hexLow_hexOf (n / 4096 % 16) (Nat.mod_lt _ (by omega))) (hexLow_hexOf (n / 256 % 16) (Nat.mod_lt _ (by omega)))
    (hexLow_hexOf (n / 16 % 16) (Nat.mod_lt _ (by omega))) (hexLow_hexOf (n % 16) (Nat.mod_lt _ (by omega))) h
  have e : n / 4096 % 16 * 4096 + n / 256 % 16 * 256 + n / 16 % 16 * 16 + n % 16 = n := by omega
  rw [e] at this
  exact this

theorem char_lt (c : Char) : c.toNat < 1114112 := by
  rcases c.valid with h | h
  · have : c.toNat < 55296 := h
    omega
  · exact h.2

theorem dumpChar_body {b s : Bytes} (c : Char) (h : StrBody b s) : StrBody (dumpChar c ++ b) (lowOf c ++ s) := by
  have hc := char_lt c
  unfold dumpChar lowOf
  generalize c.toNat = n at hc
  simp only
  split
  · rename_i e; subst e; exact .esc (c := 34) rfl h
  split
  · rename_i e; subst e; exact .esc (c := 92) rfl h
  split
  · rename_i e; subst e; exact .esc (c := 110) rfl h
  split
  · rename_i e; subst e; exact .esc (c := 114) rfl h
  split
  · rename_i e; subst e; exact .esc (c := 116) rfl h
  split
  · rename_i e; subst e; exact .esc (c := 102) rfl h
  split
  · rename_i e; subst e; exact .esc (c := 98) rfl h
  split
  · rename_i h1 h2 _ _ _ _ _ hp
    rw [if_pos (by omega)]
    have hb : n.toUInt8.toNat = n := by simp; omega
    refine .raw ?_ ?_ h
    · intro e
      rw [e] at hb
      exact h1 hb.symm
    · intro e
      rw [e] at hb
      exact h2 hb.symm
  split
  · rename_i hl
    exact esc4_body n hl h
  · rename_i hl
    rw [List.append_assoc]
    have h1 := esc4_body (0xdc00 + (n - 0x10000) % 1024) (by omega) h
    have h2 := esc4_body (0xd800 + (n - 0x10000) / 1024) (by omega) h1
    rw [byte_eq (a := 0xdc00 + (n - 0x10000) % 1024) (b := (n - 65536) % 1024) (by omega),
      byte_eq (a := 0xd800 + (n - 0x10000) / 1024) (b := (n - 65536) / 1024) (by omega)] at h2
    exact h2

theorem dumpStr_text (s : List Char) : JText (dumpStr s) (.str (s.flatMap lowOf)) := by
  refine .str ?_
  induction s with
  | nil => exact .nil
  | cons c s ih =>
    rw [List.flatMap_cons, List.flatMap_cons]
    exact dumpChar_body c ih

theorem dumpAtom_text (a : Atom) : JText (dumpAtom a) (arrives a) := by
  cases a with
  | int z => exact .int (print_int_text z)
  | bool b => cases b <;> constructor
  | str s => exact dumpStr_text s

/-- C135, exactly: what the text that Python wrote denotes for libENI. -/
theorem C135_exact (as : List Atom) : JText (dumps as) (.arr (as.map arrives)) := by
  have nw : WS [] := fun c hc => by cases hc
  have sp : WS [32] := by intro c hc; simp at hc; exact .inl hc
  cases as with
  | nil => exact .arrNil nw
  | cons a as =>
    refine .arr ?_
    have key : ∀ (as : List Atom) (a : Atom) (w : Bytes), WS w → Elems (w ++ dumpElems (a :: as)) ((a :: as).map arrives) := by
      intro as
      induction as with
      | nil =>
        intro a w hw
        have := Elems.one hw (dumpAtom_text a) nw
        simpa [dumpElems] using this
      | cons b as ih =>
        intro a w hw
        have := Elems.cons hw (dumpAtom_text a) nw (ih b [32] sp)
        simpa [dumpElems] using this
    simpa using key as a [] nw

theorem size_eq (c : Char) : c.utf8Size = if c.toNat ≤ 127 then 1 else if c.toNat ≤ 2047 then 2 else if c.toNat ≤ 65535 then 3 else 4 := by
  simp only [Char.utf8Size, UInt32.le_iff_toNat_le]
  rfl

theorem lowOf_ascii (c : Char) (h : c.toNat < 128) : lowOf c = String.utf8EncodeChar c := by
  have hs : c.utf8Size = 1 := by
    rw [size_eq, if_pos (by omega)]
  rw [String.utf8EncodeChar_eq_singleton hs, lowOf, if_pos (by omega)]
  rfl

theorem lowOf_length (c : Char) : (lowOf c).length ≤ (String.utf8EncodeChar c).length ∧ (128 ≤ c.toNat → (lowOf c).length < (String.utf8EncodeChar c).length) := by
  rw [String.length_utf8EncodeChar]
  rw [size_eq]
  unfold lowOf
  by_cases h1 : c.toNat ≤ 127
  · simp [h1, show c.toNat < 65536 by omega]
    omega
  by_cases h2 : c.toNat ≤ 2047
  · simp [h1, h2, show c.toNat < 65536 by omega]
  by_cases h3 : c.toNat ≤ 65535
  · simp [h1, h2, h3, show c.toNat < 65536 by omega]
  · simp [h1, h2, h3, show ¬ c.toNat < 65536 by omega]

theorem low_utf8 (s : List Char) : s.flatMap lowOf = textBytes s ↔ ∀ c ∈ s, c.toNat < 128 := by
  constructor
  · intro h
    have hl : ∀ s : List Char, (s.flatMap lowOf).length ≤ (textBytes s).length ∧ ((∃ c ∈ s, 128 ≤ c.toNat) → (s.flatMap lowOf).length < (textBytes s).length) := by
      intro s
      induction s with
      | nil => exact ⟨Nat.le_refl _, by rintro ⟨c, hc, -⟩; cases hc⟩
      | cons c s ih =>
        obtain ⟨h1, h2⟩ := lowOf_length c
        unfold textBytes at ih ⊢
        simp only [List.flatMap_cons, List.length_append]
        refine ⟨by omega, ?_⟩
        rintro ⟨d, hd, h128⟩
        rcases List.mem_cons.mp hd with rfl | hd
        · have := h2 h128
          omega
        · have := ih.2 ⟨d, hd, h128⟩
          omega
    intro c hc
    refine Nat.lt_of_not_le fun h128 => ?_
    have := (hl s).2 ⟨c, hc, h128⟩
    rw [h] at this
    omega
  · intro h
    unfold textBytes
    induction s with
    | nil => rfl
    | cons c s ih =>
      rw [List.flatMap_cons, List.flatMap_cons, lowOf_ascii c (h c List.mem_cons_self), ih fun d hd => h d (List.mem_cons_of_mem _ hd)]

theorem jtext_same {t : Bytes} {j j' : JV} (js js' : List JV) (ej : j = .arr js) (ej' : j' = .arr js') (h : JText t j) (h' : JText t j') : j = j' := by
  subst ej ej'
  have nw : WS [] := fun c hc => by cases hc
  exact (jtext_unique (w := []) (w' := []) (r := []) (r' := []) nw nw h h' (by rintro ⟨z, hz⟩; cases hz) (by rintro ⟨z, hz⟩; cases hz) rfl).1

/-- C135, the part that holds: every element arrives if the characters are ASCII and the integers have at most 256 bits. -/
theorem C135_ascii_partial (as : List Atom) (h : ∀ a ∈ as, match a with
    | .int z => wrap256 z = z
    | .bool _ => True
    | .str s => ∀ c ∈ s, c.toNat < 128) :
    JText (dumps as) (.arr (as.map fun | .int z => .int z | .bool b => .bool b | .str s => .str (textBytes s))) := by
  have e : as.map arrives = as.map fun | .int z => .int z | .bool b => .bool b | .str s => .str (textBytes s) := by
    refine List.map_congr_left fun a ha => ?_
    have := h a ha
    cases a with
    | int z => simpa [arrives] using this
    | bool b => rfl
    | str s => exact congrArg JV.str ((low_utf8 s).mpr this)
  rw [← e]
  exact C135_exact as

/-- C135: for libENI the text denotes the array of the string in UTF-8 exactly if all characters are ASCII. So the claim is true of ASCII and false of every
other string. -/
theorem C135_string (s : List Char) : JText (dumps [.str s]) (.arr [.str (textBytes s)]) ↔ ∀ c ∈ s, c.toNat < 128 := by
  rw [← low_utf8]
  have h := C135_exact [.str s]
  constructor
  · intro h'
    have := jtext_same _ _ rfl rfl h h'
    simpa [arrives] using this
  · intro e
    simpa [arrives, e] using h

/-- A printable ASCII character. -/
def Printable (b : UInt8) : Prop := 32 ≤ b.toNat ∧ b.toNat ≤ 126

theorem hexLow_printable (d : Nat) : Printable (hexLow (d % 16)) := by
  have : ∀ d : Fin 16, 32 ≤ (hexLow d.val).toNat ∧ (hexLow d.val).toNat ≤ 126 := by decide
  exact this ⟨d % 16, Nat.mod_lt _ (by omega)⟩

theorem esc4_printable (n : Nat) (b : UInt8) (h : b ∈ esc4 n) : Printable b := by
  simp only [esc4, List.mem_cons, List.not_mem_nil, or_false] at h
  rcases h with rfl | rfl | rfl | rfl | rfl | rfl
  · exact ⟨by decide, by decide⟩
  · exact ⟨by decide, by decide⟩
  all_goals exact hexLow_printable _

theorem dumpChar_printable (c : Char) (b : UInt8) (h : b ∈ dumpChar c) : Printable b := by
  have two : ∀ x y : UInt8, Printable x → Printable y → b ∈ [x, y] → Printable b := by
    intro x y hx hy hm
    simp only [List.mem_cons, List.not_mem_nil, or_false] at hm
    rcases hm with rfl | rfl <;> assumption
  unfold dumpChar at h
  simp only at h
  split_ifs at h with _ _ _ _ _ _ _ hp
  iterate 7 exact two _ _ ⟨by decide, by decide⟩ ⟨by decide, by decide⟩ h
  · rw [List.mem_singleton] at h
    have e : b.toNat = c.toNat := by rw [h]; simp; omega
    exact ⟨by omega, by omega⟩
  · exact esc4_printable _ b h
  · rcases List.mem_append.mp h with h | h
    · exact esc4_printable _ b h
    · exact esc4_printable _ b h

theorem intText_printable {t : Bytes} {z : Int} (h : IntText t z) (b : UInt8) (hb : b ∈ t) : Printable b := by
  have nat : ∀ {t : Bytes} {n : Nat}, NatText t n → b ∈ t → Printable b := by
    intro t n h hb
    obtain ⟨h1, h2⟩ := h.2.1 b hb
    exact ⟨by omega, by omega⟩
  cases h with
  | nonneg h => exact nat h hb
  | neg h =>
    rcases List.mem_cons.mp hb with rfl | hb
    · exact ⟨by decide, by decide⟩
    · exact nat h hb

theorem dumpAtom_printable (a : Atom) (b : UInt8) (h : b ∈ dumpAtom a) : Printable b := by
  cases a with
  | int z => exact intText_printable (print_int_text z) b h
  | bool v =>
    have : ∀ v, ∀ b ∈ dumpAtom (.bool v), 32 ≤ b.toNat ∧ b.toNat ≤ 126 := by decide
    exact this v b h
  | str s =>
    simp only [dumpAtom, dumpStr, List.mem_cons, List.mem_append, List.mem_flatMap, List.not_mem_nil, or_false] at h
    rcases h with rfl | (⟨c, -, h⟩ | rfl)
    · exact ⟨by decide, by decide⟩
    · exact dumpChar_printable c b h
    · exact ⟨by decide, by decide⟩

/-- C135: what Python sends is printable ASCII, whatever the characters. -/
theorem C135_printable (as : List Atom) (b : UInt8) (h : b ∈ dumps as) : Printable b := by
  have key : ∀ as : List Atom, b ∈ dumpElems as → Printable b := by
    intro as
    induction as with
    | nil => intro h; cases h
    | cons a as ih =>
      cases as with
      | nil => exact dumpAtom_printable a b
      | cons a' as =>
        intro h
        simp only [dumpElems] at h ih
        rcases List.mem_append.mp h with h | h
        · exact dumpAtom_printable a b h
        rcases List.mem_cons.mp h with rfl | h
        · exact ⟨by decide, by decide⟩
        rcases List.mem_cons.mp h with rfl | h
        · exact ⟨by decide, by decide⟩
        · exact ih h
  simp only [dumps, List.mem_cons, List.mem_append, List.not_mem_nil, or_false] at h
  rcases h with rfl | h | rfl
  · exact ⟨by decide, by decide⟩
  · exact key as h
  · exact ⟨by decide, by decide⟩

theorem dumps_ne (as : List Atom) : (0 : UInt8) ∉ dumps as :=
  fun h => absurd (C135_printable as 0 h).1 (by decide)

/-- C135, through the entry point of the operation of the tests' kind: what `reverse` computes of a string from Python. -/
theorem C135_reverse (L : Layout) (s : List Char) :
    opRun Reverse.op L (dumps [.str s]) = .ok (some (Value.print (.arr [.str (s.flatMap lowOf).reverse]))) := by
  have h := (C42_reverse L (w := []) (r := []) (s.flatMap lowOf) [] (by simp [WS]) (by simpa [arrives] using C135_exact [.str s]) (by simpa using dumps_ne [.str s])).1
  have hc : cstr (Value.print (.arr [.str (s.flatMap lowOf).reverse])) = Value.print (.arr [.str (s.flatMap lowOf).reverse]) :=
    cstr_of_notMem (print_strs [(s.flatMap lowOf).reverse]).2
  simpa [hc] using h

/-- What an operation reads of an element. -/
def readOf : Atom → Arg
  | .int z => .int (wrap256 z)
  | .bool b => .bool b
  | .str s => .str (s.flatMap lowOf)

/-- C135, through the entry points of any operation: the `parse` hook is called with one value per element, and the accessor for its kind returns what
`readOf` says. -/
theorem C135_operation (L : Layout) (hL : L.Good) (as : List Atom) (hlen : (dumps as).length ≤ 1073643498) :
    ∃ vs : List Value, vs.length = as.length ∧ (∀ i a, as[i]? = some a → ReadArg vs i (readOf a)) ∧
      ∀ (S : Type) (H : Hooks S), ∃ o, construct H L (dumps as) = .ok o ∧ o.calls = [] ∧ (check H o).2 = (H.parse H.init vs).2 ∧
        (check H o).1.st = (H.parse H.init vs).1 := by
  have e : as.map arrives = (as.map readOf).map Arg.json := by
    rw [List.map_map]
    exact List.map_congr_left fun a _ => by cases a <;> rfl
  have ht := C135_exact as
  rw [e] at ht
  have hk : ShortKeys (.arr ((as.map readOf).map Arg.json)) := by
    rw [← e]
    refine .arr fun j hj => ?_
    obtain ⟨a, -, rfl⟩ := List.mem_map.mp hj
    cases a <;> constructor
  obtain ⟨vs, h1, h2, -, h3⟩ := C111_arguments L hL (w := []) (r := []) (as.map readOf) (by simp [WS]) ht hk (by simpa using hlen) (by simpa using dumps_ne as)
  refine ⟨vs, by simpa using h1, fun i a ha => h2 i _ (by rw [List.getElem?_map, ha]; rfl), fun S H => ?_⟩
  have := h3 S H
  rw [List.nil_append, List.append_nil, cstr_of_notMem (dumps_ne as)] at this
  exact this

/-- C135 is false of every string with a character that is not ASCII. -/
theorem C135_utf8_false (s : List Char) (c : Char) (hc : c ∈ s) (h : 128 ≤ c.toNat) : ¬ JText (dumps [.str s]) (.arr [.str (textBytes s)]) := by
  rw [C135_string]
  intro h'
  have := h' c hc
  omega

/-- C135, strings, of the parser itself: a list of strings is read as `lowOf` says. -/
theorem C135_parse (L : Layout) (ss : List (List Char)) :
    parse L (dumps (ss.map .str)) = .ok ⟨true, .arr (ss.map fun s => .str (s.flatMap lowOf))⟩ := by
  have ht := C135_exact (ss.map .str)
  have e : (ss.map Atom.str).map arrives = (ss.map fun s => s.flatMap lowOf).map JV.str := by
    simp [List.map_map, Function.comp_def, arrives]
  rw [e] at ht
  have h0 := dumps_ne (ss.map .str)
  have := parse_strs L (w := []) (r := []) (ss.map fun s => s.flatMap lowOf) (by simp [WS]) ht (by simpa using h0)
  rw [List.nil_append, List.append_nil, cstr_of_notMem h0, List.map_map] at this
  exact this

/-- C135 is false of the parser for every string with a character that is not ASCII. -/
theorem C135_parse_false (L : Layout) (s : List Char) (c : Char) (hc : c ∈ s) (h : 128 ≤ c.toNat) :
    parse L (dumps [.str s]) ≠ .ok ⟨true, .arr [.str (textBytes s)]⟩ := by
  have := C135_parse L [s]
  simp only [List.map_cons, List.map_nil] at this
  rw [this]
  intro e
  simp only [Res.ok.injEq, Parsed.mk.injEq, true_and, Value.arr.injEq, List.cons.injEq, and_true, Value.str.injEq] at e
  have := (low_utf8 s).mp e c hc
  omega

/-- C135 is false: different strings cannot be told apart. U+0041 is A, U+0141 is Ł. -/
theorem C135_collision_false (L : Layout) : parse L (dumps [.str ['A']]) = parse L (dumps [.str ['Ł']]) ∧ dumps [.str ['A']] ≠ dumps [.str ['Ł']] := by
  refine ⟨?_, by decide +kernel⟩
  have h1 := C135_parse L [['A']]
  have h2 := C135_parse L [['Ł']]
  simp only [List.map_cons, List.map_nil] at h1 h2
  rw [h1, h2]
  have : (['A'].flatMap lowOf) = ['Ł'].flatMap lowOf := by decide +kernel
  rw [this]

/-- C135, positions: if all characters are below U+10000, then a range of bytes of what arrived is the same range of characters of the string in Python, so that
the client may cut the string at the positions in the result of the json operation. -/
theorem C135_positions_partial (s : List Char) (h : ∀ c ∈ s, c.toNat < 65536) (i n : Nat) :
    (s.flatMap lowOf).length = s.length ∧ ((s.flatMap lowOf).drop i).take n = ((s.drop i).take n).flatMap lowOf := by
  have e : ∀ s : List Char, (∀ c ∈ s, c.toNat < 65536) → s.flatMap lowOf = s.map fun c => c.toNat.toUInt8 := by
    intro s hs
    induction s with
    | nil => rfl
    | cons c s ih =>
      rw [List.flatMap_cons, ih fun d hd => hs d (List.mem_cons_of_mem _ hd), lowOf, if_pos (hs c List.mem_cons_self)]
      rfl
  rw [e s h, e _ fun c hc => h c (List.mem_of_mem_drop (List.mem_of_mem_take hc))]
  simp [List.map_drop, List.map_take]

/-- C135, positions, is false of every string with a character from U+10000 on: more bytes arrive than there are characters. -/
theorem C135_positions_false (s : List Char) (c : Char) (hc : c ∈ s) (h : 65536 ≤ c.toNat) : s.length < (s.flatMap lowOf).length := by
  have one : ∀ d : Char, 1 ≤ (lowOf d).length := fun d => by unfold lowOf; split <;> simp
  have le : ∀ s : List Char, s.length ≤ (s.flatMap lowOf).length := by
    intro s
    induction s with
    | nil => simp
    | cons d s ih =>
      have := one d
      simp only [List.flatMap_cons, List.length_append, List.length_cons]
      omega
  induction s with
  | nil => cases hc
  | cons d s ih =>
    simp only [List.flatMap_cons, List.length_append, List.length_cons]
    rcases List.mem_cons.mp hc with rfl | hc
    · have h1 := le s
      have : (lowOf c).length = 2 := by rw [lowOf, if_neg (by omega)]; rfl
      omega
    · have := one d
      have := ih hc
      omega

/-- C135, integers: the value arrives exactly if its magnitude is below 2^256. -/
theorem C135_int (z : Int) : JText (dumps [.int z]) (.arr [.int z]) ↔ z.natAbs < 2 ^ 256 := by
  have h := C135_exact [.int z]
  have hw : wrap256 z = z ↔ z.natAbs < 2 ^ 256 := by
    unfold wrap256
    constructor
    · intro e
      have := congrArg Int.natAbs e
      rw [Int.natAbs_mul, Int.natAbs_natCast] at this
      by_cases hz : z = 0
      · subst hz; decide
      · rw [Int.natAbs_sign_of_ne_zero hz, Nat.one_mul] at this
        rw [← this]
        exact Nat.mod_lt _ (by decide)
    · intro hl
      rw [Nat.mod_eq_of_lt hl]
      exact Int.sign_mul_natAbs z
  rw [← hw]
  constructor
  · intro h'
    have := jtext_same _ _ rfl rfl h h'
    simpa [arrives] using this
  · intro e
    simpa [arrives, e] using h

example : dumps [.str "objectGet".toList, .str "{\"a\": 1}".toList, .int 0, .bool true] = "[\"objectGet\", \"{\\\"a\\\": 1}\", 0, true]".toUTF8.toList := by decide +kernel
example : dumps [.str ['é', '😀', '\x7f', '\n']] = "[\"\\u00e9\\ud83d\\ude00\\u007f\\n\"]".toUTF8.toList := by decide +kernel
example : ¬ JText (dumps [.str ['é']]) (.arr [.str (textBytes ['é'])]) := by rw [C135_string]; decide
example := C135_utf8_false ['a', 'é'] 'é' (by decide) (by decide)
example := C135_ascii_partial [.int (-5), .str ['a']] (by intro a ha; simp at ha; rcases ha with rfl | rfl <;> decide)
example : (2 ^ 256 - 1 : Int).natAbs < 2 ^ 256 ∧ ¬ (2 ^ 256 : Int).natAbs < 2 ^ 256 := by decide
example := C135_positions_partial ['é', 'Ł', 'a'] (by decide) 1 2
example := C135_positions_false ['é', '😀'] '😀' (by decide) (by decide)
example (L : Layout) (hL : L.Good) := C135_operation L hL [.str ['a', 'é'], .int (-3), .bool true] (by decide +kernel)
example (L : Layout) := C135_parse_false L ['a', 'é'] 'é' (by decide) (by decide)
example (L : Layout) := C135_parse L [['a', 'é'], []]
example (L : Layout) := C135_reverse L "Hello \"World\"".toList

end Eni.Props
