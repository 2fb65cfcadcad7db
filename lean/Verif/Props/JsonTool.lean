import Verif.Proofs.JsonTool
import Verif.Proofs.Tokens
import Verif.Props.Reverse
/-!
# Properties of the json operation: C49-C52, C65

The tokenizer jsmn is not part of /repo. Its result is a hypothesis: the token list of the text as described in Spec/Tokens.
-/
namespace Eni.Props
open Spec Base Json JsonTool

/-! ### C51 -/

/-- C51: 16 lower-case digits that give the range of the value in the text, the quotes of strings included. -/
theorem C51_encode (t : Tok) (a b : Nat) (ha : t.start - (if t.kind = .string then 1 else 0) = a) (hb : t.stop + (if t.kind = .string then 1 else 0) = b)
    (h1 : a < 2 ^ 31) (h2 : b < 2 ^ 31) : ∃ x, encodeToken t = .ok x ∧ RangeCode a b x := encodeToken_spec ha hb h1 h2

example := C51_encode ⟨.string, 11, 17⟩ 10 18 rfl rfl (by decide) (by decide)

/-- C51 without any assumption on the positions: whatever is encoded has 16 lower-case digits, and two tokens with the same encoding, both
strings or both not, have the same positions. -/
theorem C51_lossless (t t' : Tok) (x : Bytes) (h : encodeToken t = .ok x) (h' : encodeToken t' = .ok x) :
    x.length = 16 ∧ (∀ c ∈ x, (48 ≤ c ∧ c ≤ 57) ∨ (97 ≤ c ∧ c ≤ 102)) ∧
    ((t.kind = .string ↔ t'.kind = .string) → t.start = t'.start ∧ t.stop = t'.stop) := by
  have key : ∀ t : Tok, encodeToken t = .ok x → x = hex8 (t.start - (if t.kind = .string then 1 else 0)) ++ hex8 (t.stop + (if t.kind = .string then 1 else 0)) ∧
      (-2147483648 ≤ t.start - (if t.kind = .string then 1 else 0) ∧ t.start - (if t.kind = .string then 1 else 0) < 2147483648) ∧
      (-2147483648 ≤ t.stop + (if t.kind = .string then 1 else 0) ∧ t.stop + (if t.kind = .string then 1 else 0) < 2147483648) := by
    intro t h
    simp only [encodeToken, int32] at h
    by_cases h1 : -2147483648 ≤ t.start - (if t.kind = .string then 1 else 0) ∧ t.start - (if t.kind = .string then 1 else 0) < 2147483648
    · rw [if_pos h1, Res.ok_bind] at h
      by_cases h2 : -2147483648 ≤ t.stop + (if t.kind = .string then 1 else 0) ∧ t.stop + (if t.kind = .string then 1 else 0) < 2147483648
      · rw [if_pos h2, Res.ok_bind] at h
        cases h
        exact ⟨rfl, h1, h2⟩
      · rw [if_neg h2] at h; cases h
    · rw [if_neg h1] at h; cases h
  obtain ⟨e, r1, r2⟩ := key t h
  obtain ⟨e', r1', r2'⟩ := key t' h'
  refine ⟨by rw [e]; rfl, ?_, ?_⟩
  · intro c hc
    rw [e] at hc
    rcases List.mem_append.mp hc with hc | hc <;> exact (hex8_spec _).2.1 c hc
  · intro hk
    have hq : (if t.kind = .string then (1 : Int) else 0) = if t'.kind = .string then 1 else 0 := by
      by_cases hs : t.kind = .string
      · rw [if_pos hs, if_pos (hk.mp hs)]
      · rw [if_neg hs, if_neg fun h => hs (hk.mpr h)]
    rw [e] at e'
    obtain ⟨g1, g2⟩ := List.append_inj e' rfl
    have f1 := (hex8_spec (t.start - if t.kind = .string then 1 else 0)).2.2
    have f2 := (hex8_spec (t.stop + if t.kind = .string then 1 else 0)).2.2
    rw [g1, (hex8_spec _).2.2, hq] at f1
    rw [g2, (hex8_spec _).2.2, hq] at f2
    rw [hq] at r1 r2
    omega

/-- The string `World!` of the test t0009 -/
example : encodeToken ⟨.string, 11, 17⟩ = .ok "0000000a00000012".toUTF8.toList ∧ RangeCode 10 18 "0000000a00000012".toUTF8.toList := by
  unfold RangeCode
  decide +kernel

/-! ### C49 -/

/-- C49: of the tokens of an array exactly those of the direct elements are selected, in order, whatever is nested in them. -/
theorem C49_tokens (E : JsonTool.Env) (data : Bytes) (start stop : Int) (off : Nat) (t : Bytes) (cs : List Child) (ht : TElems (off + 1) t cs)
    (hj : E.jsmn data start stop = some (⟨.array, off, off + t.length + 2⟩ :: cs.flatMap Child.toks)) :
    arrayTokens E data start stop = .ok (cs.map Child.tok) := by
  simp only [arrayTokens, internalParse, hj, Res.ok_bind]
  rw [arrayLoop_elems ht _ _ (by push_cast; omega) (by push_cast; omega)]

theorem encodeAll_spec {off : Nat} {t : Bytes} {cs : List Child} (hl : off + t.length < 2 ^ 31)
    (h : ∀ c ∈ cs, Inside off t c ∧ TVal c.off c.text c.tok c.sub) :
    ∃ xs : List Bytes, encodeAll (cs.map Child.tok) = .ok xs.flatten ∧
      List.Forall₂ (fun c x => encodeToken c.tok = .ok x ∧ RangeCode c.off (c.off + c.text.length) x) cs xs := by
  induction cs with
  | nil => exact ⟨[], rfl, .nil⟩
  | cons c cs ih =>
    obtain ⟨xs, e, hf⟩ := ih fun c hc => h c (by simp [hc])
    obtain ⟨⟨p, s, ht, ho⟩, hv⟩ := h c (by simp)
    obtain ⟨h1, h2, _⟩ := tval_bounds hv
    have : c.off + c.text.length ≤ off + t.length := by rw [ho, ht]; simp; omega
    obtain ⟨x, ex, hx⟩ := encodeToken_spec (a := c.off) (b := c.off + c.text.length) h1 (by rw [h2]; push_cast; rfl) (by omega) (by omega)
    refine ⟨x :: xs, ?_, .cons ⟨ex, hx⟩ hf⟩
    simp only [List.map_cons, encodeAll, ex, e, Res.ok_bind, List.flatten_cons]

/-- C49: `parseArray` is the sequence of the encoded ranges of the elements, `arrayGet` one of them; the range is exactly the text of the
element. -/
theorem C49_array (E : JsonTool.Env) (data : Bytes) (start stop : Int) (off : Nat) (t : Bytes) (cs : List Child) (ht : TElems (off + 1) t cs)
    (hj : E.jsmn data start stop = some (⟨.array, off, off + t.length + 2⟩ :: cs.flatMap Child.toks)) (hat : At data off (91 :: (t ++ [93])))
    (hl : off + t.length + 2 < 2 ^ 31) :
    ∃ xs : List Bytes, parseArray E data start stop = .ok xs.flatten ∧ List.Forall₂ (fun c x => RangeCode c.off (c.off + c.text.length) x) cs xs ∧
      (∀ c ∈ cs, At data c.off c.text) ∧ ∀ (i : Nat) x, xs[i]? = some x → arrayGet E data start stop i = .ok x := by
  have htok := C49_tokens E data start stop off t cs ht hj
  have hin := telems_inside ht
  obtain ⟨xs, e, hf⟩ := encodeAll_spec (off := off + 1) (t := t) (cs := cs) (by omega) hin
  refine ⟨xs, by rw [JsonTool.parseArray, htok, Res.ok_bind, e], hf.imp fun _ _ h => h.2, ?_, ?_⟩
  · intro c hc
    obtain ⟨⟨p, s, e', ho⟩, _⟩ := hin c hc
    exact (at_inside hat ⟨91 :: p, s ++ [93], by rw [e']; simp, by rw [ho]; simp; omega⟩).1
  · intro i x hx
    rw [arrayGet, htok, Res.ok_bind, if_neg (by omega), Int.toNat_natCast, List.getElem?_map]
    obtain ⟨hi, rfl⟩ := List.getElem?_eq_some_iff.mp hx
    have hlen := hf.length_eq
    rw [List.getElem?_eq_getElem (by omega : i < cs.length)]
    simp only [Option.map_some]
    exact (List.Forall₂.get hf (by omega) hi).1

theorem array_json (data t : Bytes) (js : List JV) (off : Nat) (ht : JText t (.arr js)) (hat : At data off t) (hl : off + t.length < 2 ^ 31) :
    ∃ top sub, TVal off t top sub ∧ ∀ (E : JsonTool.Env) (start stop : Int), E.jsmn data start stop = some (top :: sub) →
      (∀ (i : Nat) j, js[i]? = some j → ∃ a b x, arrayGet E data start stop i = .ok x ∧ RangeCode a b x ∧ off < a ∧ a < b ∧ b < off + t.length ∧
        JText ((data.drop a).take (b - a)) j) ∧
      (∀ i : Nat, js.length ≤ i → arrayGet E data start stop i = .ub .outOfBounds) := by
  have key : ∀ (t' : Bytes) (cs : List Child), t = 91 :: (t' ++ [93]) → TElems (off + 1) t' cs → List.Forall₂ (fun c j => JText c.text j) cs js →
      ∃ top sub, TVal off t top sub ∧ ∀ (E : JsonTool.Env) (start stop : Int), E.jsmn data start stop = some (top :: sub) →
      (∀ (i : Nat) j, js[i]? = some j → ∃ a b x, arrayGet E data start stop i = .ok x ∧ RangeCode a b x ∧ off < a ∧ a < b ∧ b < off + t.length ∧
        JText ((data.drop a).take (b - a)) j) ∧
      (∀ i : Nat, js.length ≤ i → arrayGet E data start stop i = .ub .outOfBounds) := by
    intro t' cs e hc hf
    subst e
    refine ⟨_, _, .arr hc, fun E start stop hj => ⟨?_, ?_⟩⟩
    · intro i j hi
      obtain ⟨xs, _, hf', hat', hget⟩ := C49_array E data start stop off t' cs hc hj hat (by simp at hl; omega)
      obtain ⟨hi', rfl⟩ := List.getElem?_eq_some_iff.mp hi
      have h1 := hf.length_eq
      have h2 := hf'.length_eq
      have hcs : i < cs.length := by omega
      have hxs : i < xs.length := by omega
      have hr := List.Forall₂.get hf' hcs hxs
      have ht := List.Forall₂.get hf hcs hi'
      have ha := hat' cs[i] (List.getElem_mem hcs)
      obtain ⟨⟨p, q, e1, e2⟩, hv⟩ := telems_inside hc cs[i] (List.getElem_mem hcs)
      have hpos := (tval_bounds hv).2.2.2.2
      have e3 := congrArg List.length e1
      simp only [List.length_append] at e3
      refine ⟨cs[i].off, cs[i].off + cs[i].text.length, xs[i], hget i xs[i] (List.getElem?_eq_getElem hxs), hr, by omega, by omega, ?_, ?_⟩
      · simp only [List.length_cons, List.length_append, List.length_nil]
        omega
      · simp only [List.get_eq_getElem] at *
        rw [Nat.add_sub_cancel_left]
        unfold At at ha
        rw [ha]
        exact ht
    · intro i hi
      have htok := C49_tokens E data start stop off t' cs hc hj
      rw [arrayGet, htok, Res.ok_bind, if_neg (by omega), Int.toNat_natCast, List.getElem?_map,
        List.getElem?_eq_none (by rw [hf.length_eq]; exact hi)]
      rfl
  cases ht with
  | arrNil hw => exact key _ [] rfl (.none hw) .nil
  | arr he =>
    obtain ⟨cs, hc, hf, _⟩ := elems_tokens he (off + 1)
    exact key _ cs rfl hc hf

/-- C49 for the values: the element `i` of any array text of the ENI grammar, at any position in the data, is what stands in the range that
`arrayGet` returns. The index is not checked: behind the last element the behaviour is undefined. -/
theorem C49_json (E : JsonTool.Env) (data t : Bytes) (js : List JV) (off : Nat) (ht : JText t (.arr js)) (hat : At data off t)
    (hl : off + t.length < 2 ^ 31) (top : Tok) (sub : List Tok) (hv : TVal off t top sub) (start stop : Int)
    (hj : E.jsmn data start stop = some (top :: sub)) :
    (∀ (i : Nat) j, js[i]? = some j → ∃ a b x, arrayGet E data start stop i = .ok x ∧ RangeCode a b x ∧ off < a ∧ a < b ∧ b < off + t.length ∧
      JText ((data.drop a).take (b - a)) j) ∧
    (∀ i : Nat, js.length ≤ i → arrayGet E data start stop i = .ub .outOfBounds) := by
  obtain ⟨top', sub', hv', h⟩ := array_json data t js off ht hat hl
  obtain ⟨rfl, rfl⟩ := tokens_unique hv hv'
  exact h E start stop hj

/-- Every text has a token list. -/
example (t : Bytes) (j : JV) (off : Nat) (ht : JText t j) : ∃ top sub, TVal off t top sub := jtext_tokens ht off

/-- `[[1],""]` at position 1 -/
example : TElems 2 [91, 49, 93, 44, 34, 34] [⟨2, [91, 49, 93], ⟨.array, 2, 5⟩, [⟨.primitive, 3, 4⟩]⟩, ⟨6, [34, 34], ⟨.string, 7, 7⟩, []⟩] ∧
    At [120, 91, 91, 49, 93, 44, 34, 34, 93] 1 [91, 91, 49, 93, 44, 34, 34, 93] := by
  refine ⟨?_, by unfold At; decide⟩
  have h1 : TVal 2 [91, 49, 93] ⟨.array, 2, 5⟩ [⟨.primitive, 3, 4⟩] :=
    .arr (t := [49]) (.one (w := []) (t := [49]) (w' := []) (by simp [WS]) (.prim (by simp) (by decide)) (by simp [WS]))
  have h2 : TElems 6 [34, 34] [⟨6, [34, 34], ⟨.string, 7, 7⟩, []⟩] :=
    .one (w := []) (t := [34, 34]) (w' := []) (by simp [WS]) (.str (b := []) .nil) (by simp [WS])
  exact .cons (w := []) (t := [91, 49, 93]) (w' := []) (r := [34, 34]) (by simp [WS]) h1 (by simp [WS]) h2

/-! ### C50 -/

theorem parseString_literal (L : Layout) {b s r : Bytes} (h : StrBody b s) : parseString L (34 :: (b ++ [34]) ++ r) = .ok s := by
  obtain ⟨x, h1, _, h2⟩ := parse_text (L := L) (w := []) (r := r) (by simp [WS]) (.str h) (by rintro ⟨z, hz⟩; cases hz) (.inr .str) (.inl .str)
  have := h2 .str
  cases this
  rw [JsonTool.parseString, show (34 :: (b ++ [34]) ++ r : Bytes) = [] ++ (34 :: (b ++ [34]) ++ r) from rfl, h1]
  rfl

/-- The key of a member is read from its text. -/
theorem getKey_text (E : JsonTool.Env) {data : Bytes} {c : Child} (hat : At data c.off c.text) (hv : TVal c.off c.text c.tok c.sub)
    (hs : c.tok.kind = .string) (hlen : c.off + c.text.length ≤ data.length) : getKey E data c.tok = parseString E.L c.text := by
  obtain ⟨h1, h2, h3, _, _⟩ := tval_bounds hv
  have hq : quote c.tok = 1 := by rw [quote, if_pos hs]
  rw [hq] at h1 h2
  rw [getKey, if_pos (by omega), h1, h2, Int.toNat_natCast, show ((c.off : Int) + c.text.length - c.off).toNat = c.text.length by omega]
  congr 1
  unfold At at hat
  rw [List.drop_append_of_le_length (by omega), List.take_append_of_le_length (by simp; omega), hat]

theorem at_length {data : Bytes} {off : Nat} {t : Bytes} (h : At data off t) (ht : 0 < t.length) : off + t.length ≤ data.length := by
  unfold At at h
  have := congrArg List.length h
  rw [List.length_take, List.length_drop] at this
  omega

theorem lookup_last {α : Type} (pre post : List (Bytes × α)) (k : Bytes) (a : α) (h : ∀ p ∈ post, p.1 ≠ k) :
    List.lookup k (pre ++ (k, a) :: post).reverse = some a := by
  rw [List.reverse_append, List.reverse_cons, List.append_assoc]
  have : ∀ l : List (Bytes × α), (∀ p ∈ l, p.1 ≠ k) → ∀ r, List.lookup k (l ++ r) = List.lookup k r := by
    intro l
    induction l with
    | nil => intro _ r; rfl
    | cons p l ih =>
      intro h r
      obtain ⟨k', v⟩ := p
      have : (k == k') = false := by simpa using fun e : k = k' => h _ List.mem_cons_self e.symm
      rw [List.cons_append, List.lookup, this]
      exact ih (fun p hp => h p (by simp [hp])) r
  rw [this _ (fun p hp => h p (by simpa using hp))]
  simp [List.lookup]

theorem lookup_absent {α : Type} (l : List (Bytes × α)) (k : Bytes) (h : ∀ p ∈ l, p.1 ≠ k) : List.lookup k l.reverse = none := by
  rw [List.lookup_eq_none_iff]
  intro p hp
  simpa using fun e : k = p.1 => h p (by simpa using hp) e.symm

/-- C50: the members of an object, with the names that the parser reads from the texts of their keys. The last one of a name decides; a name
that no member has gives sixteen zeros. -/
theorem C50_object (E : JsonTool.Env) (data : Bytes) (start stop : Int) (off : Nat) (t : Bytes) (ms : List (Child × Child)) (ht : TMembers (off + 1) t ms)
    (hj : E.jsmn data start stop = some (⟨.object, off, off + t.length + 2⟩ :: ms.flatMap fun m => m.1.toks ++ m.2.toks))
    (hat : At data off (123 :: (t ++ [125]))) (hl : off + t.length + 2 < 2 ^ 31) (name : Child → Bytes)
    (hn : ∀ m ∈ ms, JsonTool.parseString E.L m.1.text = .ok (name m.1)) (key : Bytes) :
    (∀ pre m post, ms = pre ++ m :: post → name m.1 = key → (∀ m' ∈ post, name m'.1 ≠ key) →
      At data m.2.off m.2.text ∧ ∃ x, objectGet E data start stop key = .ok x ∧ RangeCode m.2.off (m.2.off + m.2.text.length) x) ∧
    ((∀ m ∈ ms, name m.1 ≠ key) → objectGet E data start stop key = .ok (List.replicate 16 48)) := by
  have hin := tmembers_inside ht
  have hatc : ∀ c, Inside (off + 1) t c → At data c.off c.text ∧ c.off + c.text.length ≤ off + t.length + 2 := by
    rintro c ⟨p, s, e', ho⟩
    have := at_inside hat (c := c) ⟨123 :: p, s ++ [125], by rw [e']; simp, by rw [ho]; simp only [List.length_cons]; omega⟩
    refine ⟨this.1, ?_⟩
    have := this.2
    simp only [List.length_cons, List.length_append, List.length_nil] at this
    omega
  have hk : ∀ m ∈ ms, getKey E data m.1.tok = .ok (name m.1) := by
    intro m hm
    obtain ⟨h1, _, h3, h4, _⟩ := hin m hm
    rw [getKey_text E (hatc _ h1).1 h3 h4 (at_length (hatc _ h1).1 (tval_bounds h3).2.2.2.2), hn m hm]
  have htok : objectTokens E data start stop = .ok ((ms.map fun m => (name m.1, m.2.tok)).reverse) := by
    simp only [objectTokens, internalParse, hj, Res.ok_bind]
    rw [objectLoop_members name ht hk _ _ _ (by push_cast; omega) (by push_cast; omega), List.append_nil]
  constructor
  · intro pre m post e hkey hpost
    obtain ⟨_, h2, _, _, hv⟩ := hin m (by rw [e]; simp)
    obtain ⟨ha, hb⟩ := hatc _ h2
    refine ⟨ha, ?_⟩
    have : objectGet E data start stop key = encodeToken m.2.tok := by
      rw [objectGet, htok, Res.ok_bind, e, List.map_append, List.map_cons, hkey, lookup_last]
      intro p hp
      obtain ⟨m', hm', rfl⟩ := List.mem_map.mp hp
      exact hpost m' hm'
    rw [this]
    obtain ⟨h1, h2, _⟩ := tval_bounds hv
    exact encodeToken_spec h1 (by rw [h2]; push_cast; rfl) (by omega) (by omega)
  · intro h
    rw [objectGet, htok, Res.ok_bind, lookup_absent]
    · decide +kernel
    · intro p hp
      obtain ⟨m', hm', rfl⟩ := List.mem_map.mp hp
      exact h m' hm'

theorem forall₂_split {α β : Type} {R : α → β → Prop} {l : List α} {l1 l2 : List β} (h : List.Forall₂ R l (l1 ++ l2)) :
    ∃ k1 k2, List.Forall₂ R k1 l1 ∧ List.Forall₂ R k2 l2 ∧ l = k1 ++ k2 := by
  induction l1 generalizing l with
  | nil => exact ⟨[], l, .nil, h, rfl⟩
  | cons b l1 ih =>
    cases h with
    | cons h1 h2 =>
      obtain ⟨k1, k2, f1, f2, rfl⟩ := ih h2
      exact ⟨_ :: k1, k2, .cons h1 f1, f2, rfl⟩

theorem object_json (data t : Bytes) (kjs : List (Bytes × JV)) (off : Nat) (ht : JText t (.obj kjs)) (hat : At data off t) (hl : off + t.length < 2 ^ 31) :
    ∃ top sub, TVal off t top sub ∧ ∀ (E : JsonTool.Env) (start stop : Int), E.jsmn data start stop = some (top :: sub) → ∀ key,
      (∀ pre j post, kjs = pre ++ (key, j) :: post → (∀ p ∈ post, p.1 ≠ key) → ∃ a b x, objectGet E data start stop key = .ok x ∧ RangeCode a b x ∧
        off < a ∧ a < b ∧ b < off + t.length ∧ JText ((data.drop a).take (b - a)) j) ∧
      ((∀ p ∈ kjs, p.1 ≠ key) → objectGet E data start stop key = .ok (List.replicate 16 48)) := by
  have key : ∀ (t' : Bytes) (ms : List (Child × Child)), t = 123 :: (t' ++ [125]) → TMembers (off + 1) t' ms → List.Forall₂ MemberOf ms kjs →
      ∃ top sub, TVal off t top sub ∧ ∀ (E : JsonTool.Env) (start stop : Int), E.jsmn data start stop = some (top :: sub) → ∀ key,
      (∀ pre j post, kjs = pre ++ (key, j) :: post → (∀ p ∈ post, p.1 ≠ key) → ∃ a b x, objectGet E data start stop key = .ok x ∧ RangeCode a b x ∧
        off < a ∧ a < b ∧ b < off + t.length ∧ JText ((data.drop a).take (b - a)) j) ∧
      ((∀ p ∈ kjs, p.1 ≠ key) → objectGet E data start stop key = .ok (List.replicate 16 48)) := by
    intro t' ms e hm hf
    subst e
    refine ⟨_, _, .obj hm, fun E start stop hj key => ?_⟩
    let name : Child → Bytes := fun c => match JsonTool.parseString E.L c.text with | .ok s => s | _ => []
    have hname : ∀ m kj, MemberOf m kj → JsonTool.parseString E.L m.1.text = .ok kj.1 ∧ name m.1 = kj.1 := by
      rintro m kj ⟨b, hb, hs, _⟩
      have := parseString_literal E.L (r := []) hs
      rw [List.append_nil, ← hb] at this
      refine ⟨this, ?_⟩
      show (match JsonTool.parseString E.L m.1.text with | .ok s => s | _ => []) = _
      rw [this]
    have hn : ∀ m ∈ ms, JsonTool.parseString E.L m.1.text = .ok (name m.1) := by
      intro m hm
      obtain ⟨i, hi, rfl⟩ := List.getElem_of_mem hm
      have := hname _ _ (List.Forall₂.get hf hi (by rw [← hf.length_eq]; exact hi))
      simp only [List.get_eq_getElem] at this
      rw [this.1, this.2]
    have hmem : ∀ (l : List (Child × Child)) (l' : List (Bytes × JV)), List.Forall₂ MemberOf l l' → (∀ p ∈ l', p.1 ≠ key) → ∀ m ∈ l, name m.1 ≠ key := by
      intro l l' hf h m hm
      obtain ⟨i, hi, rfl⟩ := List.getElem_of_mem hm
      have := (hname _ _ (List.Forall₂.get hf hi (by rw [← hf.length_eq]; exact hi))).2
      simp only [List.get_eq_getElem] at this
      rw [this]
      exact h _ (List.getElem_mem _)
    obtain ⟨h1, h2⟩ := C50_object E data start stop off t' ms hm hj hat (by simp at hl; omega) name hn key
    refine ⟨?_, fun h => h2 (hmem _ _ hf h)⟩
    intro pre j post e hp
    subst e
    obtain ⟨ms1, ms2', hf1, hf2, rfl⟩ := forall₂_split hf
    obtain ⟨m, ms2, hmo, hf3, rfl⟩ := List.forall₂_cons_right_iff.mp hf2
    obtain ⟨ha, x, hx, hr⟩ := h1 ms1 m ms2 rfl (hname _ _ hmo).2 (hmem _ _ hf3 hp)
    obtain ⟨_, ⟨p, q, e1, e2⟩, _, _, hv⟩ := tmembers_inside hm m (by simp)
    have hpos := (tval_bounds hv).2.2.2.2
    have e3 := congrArg List.length e1
    simp only [List.length_append] at e3
    refine ⟨m.2.off, m.2.off + m.2.text.length, x, hx, hr, by omega, by omega, ?_, ?_⟩
    · simp only [List.length_cons, List.length_append, List.length_nil]
      omega
    obtain ⟨b, _, _, hj⟩ := hmo
    rw [Nat.add_sub_cancel_left]
    unfold At at ha
    rw [ha]
    exact hj
  cases ht with
  | objNil hw => exact key _ [] rfl (.none hw) .nil
  | obj he =>
    obtain ⟨cs, hc, hf, _⟩ := members_tokens he (off + 1)
    exact key _ cs rfl hc hf

/-- C50 for the values: the member of any object text of the ENI grammar, at any position in the data. -/
theorem C50_json (E : JsonTool.Env) (data t : Bytes) (kjs : List (Bytes × JV)) (off : Nat) (ht : JText t (.obj kjs)) (hat : At data off t)
    (hl : off + t.length < 2 ^ 31) (top : Tok) (sub : List Tok) (hv : TVal off t top sub) (start stop : Int)
    (hj : E.jsmn data start stop = some (top :: sub)) (key : Bytes) :
    (∀ pre j post, kjs = pre ++ (key, j) :: post → (∀ p ∈ post, p.1 ≠ key) → ∃ a b x, objectGet E data start stop key = .ok x ∧ RangeCode a b x ∧
      off < a ∧ a < b ∧ b < off + t.length ∧ JText ((data.drop a).take (b - a)) j) ∧
    ((∀ p ∈ kjs, p.1 ≠ key) → objectGet E data start stop key = .ok (List.replicate 16 48)) := by
  obtain ⟨top', sub', hv', h⟩ := object_json data t kjs off ht hat hl
  obtain ⟨rfl, rfl⟩ := tokens_unique hv hv'
  exact h E start stop hj key

/-- `{"a":1,"a":[2]}`: the last member counts. -/
example : JText "{\"a\":1,\"a\":[2]}".toUTF8.toList (.obj [([97], .int 1), ([97], .arr [.int 2])]) := by
  have h1 : JText [49] (.int 1) := .int (.nonneg (t := [49]) (n := 1) ⟨by simp, by simp [Digit], by simp, by decide⟩)
  have h2 : JText [50] (.int 2) := .int (.nonneg (t := [50]) (n := 2) ⟨by simp, by simp [Digit], by simp, by decide⟩)
  have h3 : JText [91, 50, 93] (.arr [.int 2]) := .arr (t := [50]) (.one (w := []) (t := [50]) (w' := []) (by simp [WS]) h2 (by simp [WS]))
  have hk : StrBody [97] [97] := .raw (by decide) (by decide) .nil
  have hw : WS [] := by simp [WS]
  rw [show "{\"a\":1,\"a\":[2]}".toUTF8.toList = (123 :: ([34, 97, 34, 58, 49, 44, 34, 97, 34, 58, 91, 50, 93] ++ [125]) : Bytes) by decide +kernel]
  exact .obj (t := [34, 97, 34, 58, 49, 44, 34, 97, 34, 58, 91, 50, 93])
    (.cons (w := []) (b := [97]) (w1 := []) (w2 := []) (t := [49]) (w3 := []) hw hk hw hw h1 hw
      (.one (w := []) (b := [97]) (w1 := []) (w2 := []) (t := [91, 50, 93]) (w3 := []) hw hk hw hw h3 hw))

/-! ### C52 -/

/-- The result of the function `parseString` of the operation on a range of `data`. -/
def stringIn (E : JsonTool.Env) (data : Bytes) (a b : Int) : Res (Option Bytes) := parseArgs E [.str nParseString, .str data, .int a, .int b]

theorem stringIn_eq (E : JsonTool.Env) (data : Bytes) (a b : Int) (ha : 0 ≤ a) (ha' : a < 2147483648) (hb : 0 ≤ b) (hb' : b < 2147483648) :
    stringIn E data a b = (subString data a b >>= fun raw => JsonTool.parseString E.L raw >>= fun s => .ok (some s)) := by
  have h0 : Value.argAt [.str nParseString, .str data, .int a, .int b] 0 = .ok (.str nParseString) := rfl
  have h1 : Value.argAt [.str nParseString, .str data, .int a, .int b] 1 = .ok (.str data) := rfl
  have h2 : Value.argAt [.str nParseString, .str data, .int a, .int b] 2 = .ok (.int a) := rfl
  have h3 : Value.argAt [.str nParseString, .str data, .int a, .int b] 3 = .ok (.int b) := rfl
  unfold stringIn parseArgs
  simp only [h0, h1, h2, h3, Value.toStr, Value.toInteger, Res.ok_bind, if_true]
  rw [E.hconv a (by omega) ha', E.hconv b (by omega) hb']

theorem cstr_append {p s : Bytes} (h : 0 ∉ p) : cstr (p ++ s) = p ++ cstr s := by
  unfold cstr
  rw [List.takeWhile_append_of_pos]
  intro b hb
  simpa using fun e : b = 0 => h (e ▸ hb)

/-- C52, what holds: if the range is a complete string literal its value is the result, whatever else is in the data. -/
theorem C52_partial (E : JsonTool.Env) (p b s r : Bytes) (hs : StrBody b s) (h0 : 0 ∉ p ++ b) (hl : p.length + b.length + 2 < 2 ^ 31) :
    stringIn E (p ++ (34 :: (b ++ [34]) ++ r)) p.length (p.length + b.length + 2 : Nat) = .ok (some s) := by
  rw [stringIn_eq _ _ _ _ (by omega) (by omega) (by omega) (by omega), subString]
  have e : cstr (p ++ (34 :: (b ++ [34]) ++ r)) = p ++ (34 :: (b ++ [34]) ++ cstr r) := by
    rw [← List.append_assoc, cstr_append, List.append_assoc]
    intro h
    apply h0
    simpa using h
  rw [e]
  rw [if_neg (by simp; omega), if_neg (by omega), Int.toNat_natCast, Int.toNat_natCast, List.drop_left, List.take_append, List.take_of_length_le (by simp),
    Res.ok_bind, parseString_literal _ hs, Res.ok_bind]

/-- `x"a"b` -/
example : StrBody [97] [97] ∧ (0 : UInt8) ∉ ([120] ++ [97] : Bytes) ∧ ([120] : Bytes).length + ([97] : Bytes).length + 2 < 2 ^ 31 :=
  ⟨.raw (by decide) (by decide) .nil, by decide, by decide⟩

/-- C52 is false: `x"ab"` and `x"abc` have the same characters from 1 to 4, but the results differ: the second argument is used as a length. -/
theorem C52_false (E : JsonTool.Env) : ∃ data data' : Bytes, ∃ a b : Nat, a ≤ b ∧ b ≤ data.length ∧ b ≤ data'.length ∧
    (data.drop a).take (b - a) = (data'.drop a).take (b - a) ∧ stringIn E data a b ≠ stringIn E data' a b := by
  refine ⟨[120, 34, 97, 98, 34], [120, 34, 97, 98, 99], 1, 4, by decide, by decide, by decide, by decide, ?_⟩
  rw [stringIn_eq _ _ _ _ (by decide) (by decide) (by decide) (by decide), stringIn_eq _ _ _ _ (by decide) (by decide) (by decide) (by decide)]
  have e1 : subString [120, 34, 97, 98, 34] (1 : Nat) (4 : Nat) = .ok [34, 97, 98, 34] := by decide +kernel
  have e2 : subString [120, 34, 97, 98, 99] (1 : Nat) (4 : Nat) = .ok [34, 97, 98, 99] := by decide +kernel
  have p1 : JsonTool.parseString E.L [34, 97, 98, 34] = .ok [97, 98] :=
    parseString_literal E.L (b := [97, 98]) (r := []) (.raw (by decide) (by decide) (.raw (by decide) (by decide) .nil))
  have p2 : JsonTool.parseString E.L [34, 97, 98, 99] = .ok [] := by rfl
  rw [e1, e2, Res.ok_bind, Res.ok_bind, p1, p2]
  simp [Res.ok_bind]

/-! ### C65 -/

theorem stringIn_slice (E : JsonTool.Env) {data : Bytes} {a b : Nat} {s : Bytes} (h0 : 0 ∉ data) (hb : b ≤ data.length) (hl : b < 2 ^ 31)
    (hs : JText ((data.drop a).take (b - a)) (.str s)) : stringIn E data a b = .ok (some s) := by
  generalize e : (data.drop a).take (b - a) = t at hs
  cases hs with
  | str hs =>
    rename_i c
    have hlen := congrArg List.length e
    simp only [List.length_take, List.length_drop, List.length_cons, List.length_append, List.length_nil] at hlen
    have hd : data = data.take a ++ (34 :: (c ++ [34]) ++ data.drop b) := by
      have hab : data.drop b = (data.drop a).drop (b - a) := by rw [List.drop_drop]; congr 1; omega
      rw [← e, hab, List.take_append_drop, List.take_append_drop]
    have ha : (data.take a).length = a := by rw [List.length_take]; omega
    have := C52_partial E (data.take a) c s (data.drop b) hs (fun h => h0 (by rw [hd]; simp at h ⊢; tauto)) (by rw [ha]; omega)
    rw [← hd, ha, show a + c.length + 2 = b by omega] at this
    exact this

/-- C65: a string in an array is found with `arrayGet` and read with `parseString`, the range being passed on as it is. -/
theorem C65_array (E : JsonTool.Env) (data t : Bytes) (js : List JV) (off : Nat) (ht : JText t (.arr js)) (hat : At data off t)
    (hl : off + t.length < 2 ^ 31) (h0 : 0 ∉ data) (top : Tok) (sub : List Tok) (hv : TVal off t top sub) (start stop : Int)
    (hj : E.jsmn data start stop = some (top :: sub)) (i : Nat) (s : Bytes) (hi : js[i]? = some (.str s)) :
    ∃ a b x, arrayGet E data start stop i = .ok x ∧ RangeCode a b x ∧ stringIn E data a b = .ok (some s) := by
  obtain ⟨a, b, x, hx, hr, _, _, hb, hs⟩ := (C49_json E data t js off ht hat hl top sub hv start stop hj).1 i _ hi
  have := at_length hat (tval_bounds hv).2.2.2.2
  exact ⟨a, b, x, hx, hr, stringIn_slice E h0 (by omega) (by omega) hs⟩

/-- C65 for the members of objects. -/
theorem C65_object (E : JsonTool.Env) (data t : Bytes) (kjs : List (Bytes × JV)) (off : Nat) (ht : JText t (.obj kjs)) (hat : At data off t)
    (hl : off + t.length < 2 ^ 31) (h0 : 0 ∉ data) (top : Tok) (sub : List Tok) (hv : TVal off t top sub) (start stop : Int)
    (hj : E.jsmn data start stop = some (top :: sub)) (pre post : List (Bytes × JV)) (key s : Bytes) (e : kjs = pre ++ (key, .str s) :: post)
    (hp : ∀ p ∈ post, p.1 ≠ key) : ∃ a b x, objectGet E data start stop key = .ok x ∧ RangeCode a b x ∧ stringIn E data a b = .ok (some s) := by
  obtain ⟨a, b, x, hx, hr, _, _, hb, hs⟩ := (C50_json E data t kjs off ht hat hl top sub hv start stop hj key).1 pre _ post e hp
  have := at_length hat (tval_bounds hv).2.2.2.2
  exact ⟨a, b, x, hx, hr, stringIn_slice E h0 (by omega) (by omega) hs⟩

/-- `["a"]` with a space in front -/
example : JText [91, 34, 97, 34, 93] (.arr [.str [97]]) ∧ At [32, 91, 34, 97, 34, 93] 1 [91, 34, 97, 34, 93] ∧ (0 : UInt8) ∉ ([32, 91, 34, 97, 34, 93] : Bytes) := by
  refine ⟨.arr (t := [34, 97, 34]) (.one (w := []) (t := [34, 97, 34]) (w' := []) (by simp [WS]) (.str (b := [97]) ?_) (by simp [WS])), ?_, by decide⟩
  · exact .raw (by decide) (by decide) .nil
  · unfold At; decide

/-! ### The entry points -/

/-- An argument that is a string or an integer of the range of `int256_t`. -/
def FlatArg (v : Value) : Prop := (∃ s, v = .str s) ∨ ∃ z : Int, v = .int z ∧ z.natAbs < 2 ^ 256

theorem parse_flat (L : Layout) (vs : List Value) (h : ∀ v ∈ vs, FlatArg v) : parse L (cstr (Value.print (.arr vs))) = .ok ⟨true, .arr vs⟩ := by
  let jv : Value → JV := fun v => match v with | .int z => .int z | .str s => .str s | _ => .int 0
  have hall : ∀ v ∈ vs, Shows v (jv v) ∧ ObjFree (jv v) ∧ BoolFree (jv v) ∧ InRange (jv v) := by
    intro v hv
    rcases h v hv with ⟨s, rfl⟩ | ⟨z, rfl, hz⟩
    · exact ⟨.str, .str, .str, .str⟩
    · exact ⟨.int, .int, .int, .int hz⟩
  have hmap : ∀ j ∈ vs.map jv, ∃ v ∈ vs, jv v = j := fun j hj => List.mem_map.mp hj
  have hs : Shows (.arr vs) (.arr (vs.map jv)) := by
    refine .arr (by simp) ?_
    intro i v j h1 h2
    rw [List.getElem?_map, h1] at h2
    cases h2
    exact (hall v (List.mem_of_getElem? h1)).1
  have hf : ObjFree (.arr (vs.map jv)) := .arr fun j hj => by obtain ⟨v, hv, rfl⟩ := hmap j hj; exact (hall v hv).2.1
  have hb : BoolFree (.arr (vs.map jv)) := .arr fun j hj => by obtain ⟨v, hv, rfl⟩ := hmap j hj; exact (hall v hv).2.2.1
  have hr : InRange (.arr (vs.map jv)) := .arr fun j hj => by obtain ⟨v, hv, rfl⟩ := hmap j hj; exact (hall v hv).2.2.2
  have ht := print_text hs (ObjFree.noMembers hf) hr
  rw [cstr_of_clean (C62_object_free_partial hs hf)]
  obtain ⟨x, h1, _, h2⟩ := parse_text (L := L) (w := []) (r := []) (by simp [WS]) ht (by rintro ⟨z, hz⟩; cases hz) (.inr hb) (.inl (ObjFree.noMembers hf))
  rw [List.nil_append, List.append_nil] at h1
  rw [h1, shows_unique hs hf x (h2 (NoMembers.shortKeys (ObjFree.noMembers hf)))]

/-- `json_run` and `json_gas` on the printed arguments: the result of the function in an array of one string, ten gas for each character; an
unknown function is refused. -/
theorem json_entry (E : JsonTool.Env) (L : Layout) (vs : List Value) (h : ∀ v ∈ vs, FlatArg v) :
    (∀ s, parseArgs E vs = .ok (some s) → opRun (JsonTool.op E) L (Value.print (.arr vs)) = .ok (some (Value.print (.arr [.str s]))) ∧
      opGas (JsonTool.op E) L (Value.print (.arr vs)) = .ok (10 * s.length)) ∧
    (parseArgs E vs = .ok none → opRun (JsonTool.op E) L (Value.print (.arr vs)) = .ok none ∧ opGas (JsonTool.op E) L (Value.print (.arr vs)) = .ok 1500) := by
  have hp := parse_flat L vs h
  constructor
  · intro s hs
    have h1 : (JsonTool.op E).parse (JsonTool.op E).init vs = (s, .ok true) := by simp [JsonTool.op, hs]
    obtain ⟨hs1, hf, _⟩ := shows_strs [s]
    refine ⟨C38_entry (JsonTool.op E) L _ _ hp s s h1 [.str s] rfl _ hs1 hf, ?_⟩
    have hck := check_ok (H := JsonTool.op E) (o := ⟨false, false, .arr vs, .arr [], (JsonTool.op E).init, []⟩) rfl rfl h1
    simp only [opGas, construct_of hp, Res.ok_bind, copyTop, getGas, hck]
    simp [JsonTool.op, Nat.mul_comm]
  · intro hs
    have h1 : (JsonTool.op E).parse (JsonTool.op E).init vs = ([], .ok false) := by simp [JsonTool.op, hs]
    have hck := check_ok (H := JsonTool.op E) (o := ⟨false, false, .arr vs, .arr [], (JsonTool.op E).init, []⟩) rfl rfl h1
    simp only [opRun, opGas, construct_of hp, Res.ok_bind, copyTop, getGas, start, hck]
    trivial

/-- The arguments of the four functions. -/
def argsString (data : Bytes) (a b : Int) : Bytes := Value.print (.arr [.str nParseString, .str data, .int a, .int b])
def argsArray (data : Bytes) (a b i : Int) : Bytes := Value.print (.arr [.str nArrayGet, .str data, .int a, .int b, .int i])
def argsObject (data : Bytes) (a b : Int) (key : Bytes) : Bytes := Value.print (.arr [.str nObjectGet, .str data, .int a, .int b, .str key])

/-- An argument of type `int`. -/
def IsInt (z : Int) : Prop := -2147483648 ≤ z ∧ z < 2147483648

theorem IsInt.flat {z : Int} (h : IsInt z) : FlatArg (.int z) := .inr ⟨z, rfl, by unfold IsInt at h; omega⟩

theorem names_ne : nArrayGet ≠ nParseString ∧ nArrayGet ≠ nParseArray ∧ nObjectGet ≠ nParseString ∧ nObjectGet ≠ nParseArray ∧ nObjectGet ≠ nArrayGet := by
  decide +kernel

/-- C49 through the entry points. -/
theorem C49_entry (E : JsonTool.Env) (L : Layout) (data : Bytes) (a b i : Int) (ha : IsInt a) (hb : IsInt b) (hi : IsInt i) (x : Bytes)
    (h : arrayGet E data a b i = .ok x) :
    opRun (JsonTool.op E) L (argsArray data a b i) = .ok (some (Value.print (.arr [.str x]))) ∧
    opGas (JsonTool.op E) L (argsArray data a b i) = .ok (10 * x.length) := by
  refine (json_entry E L _ ?_).1 x ?_
  · intro v hv
    simp only [List.mem_cons, List.not_mem_nil, or_false] at hv
    rcases hv with rfl | rfl | rfl | rfl | rfl
    exacts [.inl ⟨_, rfl⟩, .inl ⟨_, rfl⟩, ha.flat, hb.flat, hi.flat]
  · have h0 : Value.argAt [.str nArrayGet, .str data, .int a, .int b, .int i] 0 = .ok (.str nArrayGet) := rfl
    have h1 : Value.argAt [.str nArrayGet, .str data, .int a, .int b, .int i] 1 = .ok (.str data) := rfl
    have h2 : Value.argAt [.str nArrayGet, .str data, .int a, .int b, .int i] 2 = .ok (.int a) := rfl
    have h3 : Value.argAt [.str nArrayGet, .str data, .int a, .int b, .int i] 3 = .ok (.int b) := rfl
    have h4 : Value.argAt [.str nArrayGet, .str data, .int a, .int b, .int i] 4 = .ok (.int i) := rfl
    simp only [parseArgs, h0, h1, h2, h3, h4, Value.toStr, Value.toInteger, Res.ok_bind, if_neg names_ne.1, if_neg names_ne.2.1, if_true]
    rw [E.hconv a ha.1 ha.2, E.hconv b hb.1 hb.2, E.hconv i hi.1 hi.2, h, Res.ok_bind]

/-- C50 through the entry points. -/
theorem C50_entry (E : JsonTool.Env) (L : Layout) (data : Bytes) (a b : Int) (key : Bytes) (ha : IsInt a) (hb : IsInt b) (x : Bytes)
    (h : objectGet E data a b key = .ok x) :
    opRun (JsonTool.op E) L (argsObject data a b key) = .ok (some (Value.print (.arr [.str x]))) ∧
    opGas (JsonTool.op E) L (argsObject data a b key) = .ok (10 * x.length) := by
  refine (json_entry E L _ ?_).1 x ?_
  · intro v hv
    simp only [List.mem_cons, List.not_mem_nil, or_false] at hv
    rcases hv with rfl | rfl | rfl | rfl | rfl
    exacts [.inl ⟨_, rfl⟩, .inl ⟨_, rfl⟩, ha.flat, hb.flat, .inl ⟨_, rfl⟩]
  · have h0 : Value.argAt [.str nObjectGet, .str data, .int a, .int b, .str key] 0 = .ok (.str nObjectGet) := rfl
    have h1 : Value.argAt [.str nObjectGet, .str data, .int a, .int b, .str key] 1 = .ok (.str data) := rfl
    have h2 : Value.argAt [.str nObjectGet, .str data, .int a, .int b, .str key] 2 = .ok (.int a) := rfl
    have h3 : Value.argAt [.str nObjectGet, .str data, .int a, .int b, .str key] 3 = .ok (.int b) := rfl
    have h4 : Value.argAt [.str nObjectGet, .str data, .int a, .int b, .str key] 4 = .ok (.str key) := rfl
    simp only [parseArgs, h0, h1, h2, h3, h4, Value.toStr, Value.toInteger, Res.ok_bind, if_neg names_ne.2.2.1, if_neg names_ne.2.2.2.1,
      if_neg names_ne.2.2.2.2, if_true]
    rw [E.hconv a ha.1 ha.2, E.hconv b hb.1 hb.2, h, Res.ok_bind]

theorem string_entry (E : JsonTool.Env) (L : Layout) (data : Bytes) (a b : Int) (ha : IsInt a) (hb : IsInt b) (s : Bytes)
    (h : stringIn E data a b = .ok (some s)) :
    opRun (JsonTool.op E) L (argsString data a b) = .ok (some (Value.print (.arr [.str s]))) ∧
    opGas (JsonTool.op E) L (argsString data a b) = .ok (10 * s.length) := by
  refine (json_entry E L _ ?_).1 s h
  intro v hv
  simp only [List.mem_cons, List.not_mem_nil, or_false] at hv
  rcases hv with rfl | rfl | rfl | rfl
  exacts [.inl ⟨_, rfl⟩, .inl ⟨_, rfl⟩, ha.flat, hb.flat]

/-- An array of `n` elements has at least `n` characters. -/
theorem arr_length {t : Bytes} {js : List JV} (h : JText t (.arr js)) : js.length ≤ t.length := by
  have key : ∀ {t js}, Elems t js → js.length ≤ t.length := by
    intro t js h
    induction js generalizing t with
    | nil => simp
    | cons j js ih =>
      cases h with
      | one _ ht _ =>
        obtain ⟨top, sub, hv⟩ := jtext_tokens ht 0
        have := (tval_bounds hv).2.2.2.2
        simp; omega
      | cons _ ht _ hr =>
        have := ih hr
        simp at this ⊢; omega
  cases h with
  | arrNil _ => simp
  | arr h =>
    have := key h
    simp; omega

/-- C65 through the entry points: two calls of `json_run` read the string with index `i` of an array in the text; the gas of the calls is
160 and ten for each character. -/
theorem C65_entry (E : JsonTool.Env) (L L' : Layout) (data t : Bytes) (js : List JV) (off : Nat) (ht : JText t (.arr js)) (hat : At data off t)
    (hl : off + t.length < 2 ^ 31) (h0 : 0 ∉ data) (top : Tok) (sub : List Tok) (hv : TVal off t top sub) (start stop : Int) (h1 : IsInt start)
    (h2 : IsInt stop) (hj : E.jsmn data start stop = some (top :: sub)) (i : Nat) (s : Bytes) (hi : js[i]? = some (.str s)) :
    ∃ a b x, opRun (JsonTool.op E) L (argsArray data start stop i) = .ok (some (Value.print (.arr [.str x]))) ∧
      opGas (JsonTool.op E) L (argsArray data start stop i) = .ok 160 ∧ RangeCode a b x ∧
      opRun (JsonTool.op E) L' (argsString data a b) = .ok (some (Value.print (.arr [.str s]))) ∧
      opGas (JsonTool.op E) L' (argsString data a b) = .ok (10 * s.length) := by
  obtain ⟨a, b, x, hx, hr, _, _, hb, hs⟩ := (C49_json E data t js off ht hat hl top sub hv start stop hj).1 i _ hi
  have hlen := at_length hat (tval_bounds hv).2.2.2.2
  have hstr := stringIn_slice E h0 (by omega) (by omega) hs
  have hil : i < js.length := (List.getElem?_eq_some_iff.mp hi).1
  have hjl : js.length ≤ t.length := arr_length ht
  obtain ⟨r1, r2⟩ := C49_entry E L data start stop i h1 h2 ⟨by omega, by omega⟩ x hx
  obtain ⟨r3, r4⟩ := string_entry E L' data a b ⟨by omega, by omega⟩ ⟨by omega, by omega⟩ s hstr
  refine ⟨a, b, x, r1, ?_, hr, r3, r4⟩
  rw [r2, hr.1]

end Eni.Props
