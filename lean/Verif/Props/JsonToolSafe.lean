import Verif.Props.JsonTool
import Verif.Proofs.JsonToolSafe
/-!
# C104: calls of the json operation with arbitrary data

Nothing is assumed about the tokens: the tokenizer also delivers lists for data that is not JSON (its second result is not looked at), with
ends of -1 for containers that are not closed.
-/
namespace Eni.Props
open Spec Base Json JsonTool

/-- What `parseString` does with every text. -/
theorem parseString_reads {L : Layout} (hL : L.Good) {k : Bytes} (hlen : k.length ≤ 1073643498) :
    (∀ s, ReadsAs k (some s) → JsonTool.parseString L k = .ok s) ∧ (ReadsAs k none → JsonTool.parseString L k = .ub .badUnion) ∧ ∃ o, ReadsAs k o := by
  rcases parse_kind L k hlen with ⟨w, t, j, r, x, h1, h2, h3, h4, h5⟩ | ⟨h1, h2⟩
  · have hb : Begins k j := ⟨w, t, r, h2, h3, h4⟩
    have e : JsonTool.parseString L k = x.toStr := by simp [JsonTool.parseString, h1]
    refine ⟨?_, ?_, ?_⟩
    · intro s hs
      cases hs with
      | str hs =>
        obtain ⟨w', t', r', g2, g3, g4⟩ := hs
        obtain ⟨s', rfl⟩ := (begins_kind (r := r) (r' := r') h3 g3 h4 g4 (by rw [← h2, ← g2])).mpr ⟨s, rfl⟩
        obtain ⟨e', _⟩ := jtext_unique (r := r) (r' := r') h3 g3 h4 g4 (by simp) (by simp) (by rw [← h2, ← g2])
        rw [e, h5.1 s e']
        rfl
      | nothing hs => exact absurd hb (hs j)
    · intro hs
      cases hs with
      | other hs hn =>
        obtain ⟨w', t', r', g2, g3, g4⟩ := hs
        have hk := begins_kind (r := r) (r' := r') h3 g3 h4 g4 (by rw [← h2, ← g2])
        have hx := h5.2 (fun s hs => by obtain ⟨s', hs'⟩ := hk.mp ⟨s, hs⟩; exact hn s' hs')
        rw [e]
        cases x with
        | str s => exact absurd rfl (hx s)
        | _ => rfl
    · by_cases hj : ∃ s, j = .str s
      · obtain ⟨s, rfl⟩ := hj
        exact ⟨_, .str hb⟩
      · exact ⟨_, .other hb (fun s hs => hj ⟨s, hs⟩)⟩
  · have hno : ∀ j, ¬ Begins k j := by
      rintro j ⟨w, t, r, rfl, hw, ht⟩
      obtain ⟨u, st, h⟩ := begins_accepted (r := r) hL hw ht
      exact h2 u st h
    refine ⟨?_, ?_, _, .nothing hno⟩
    · intro s hs
      cases hs with
      | str hs => exact absurd hs (hno _)
      | nothing _ => simp [JsonTool.parseString, h1]
    · intro hs
      cases hs with
      | other hs _ => exact absurd hs (hno _)

/-! ### reading a string -/

/-- C104 for `parseString`: the outcome for every range inside the data. What is missing from the full statement: a defined outcome if the
range begins with a JSON text that is not a string. -/
theorem C104_string_partial (E : JsonTool.Env) (hL : E.L.Good) (data : Bytes) (h0 : 0 ∉ data) (hlen : data.length ≤ 1073643498) (a b : Nat) (ha : a ≤ data.length)
    (hb : b < 2 ^ 31) :
    (∀ s, ReadsAs ((data.drop a).take b) (some s) → stringIn E data a b = .ok (some s)) ∧
    (ReadsAs ((data.drop a).take b) none → stringIn E data a b = .ub .badUnion) ∧ ∃ o, ReadsAs ((data.drop a).take b) o := by
  have hk : ((data.drop a).take b).length ≤ 1073643498 := by
    rw [List.length_take, List.length_drop]
    omega
  obtain ⟨h1, h2, h3⟩ := parseString_reads hL hk
  have e : stringIn E data a b = (JsonTool.parseString E.L ((data.drop a).take b) >>= fun s => .ok (some s)) := by
    rw [stringIn_eq _ _ _ _ (by omega) (by omega) (by omega) (by omega), subString, cstr_of_notMem h0, if_neg (by omega), if_neg (by omega), Int.toNat_natCast,
      Int.toNat_natCast, Res.ok_bind]
  refine ⟨fun s hs => by rw [e, h1 s hs, Res.ok_bind], fun hs => by rw [e, h2 hs]; rfl, h3⟩

/-- ` "a"1` -/
example (E : JsonTool.Env) (hL : E.L.Good) : stringIn E [32, 34, 97, 34, 49] 0 5 = .ok (some [97]) ∧ stringIn E [32, 34, 97, 34, 49] 4 1 = .ub .badUnion ∧
    stringIn E [32, 34, 97, 34, 49] 2 1 = .ok (some []) := by
  have h := fun a b => C104_string_partial E hL [32, 34, 97, 34, 49] (by decide) (by decide) a b
  refine ⟨(h 0 5 (by decide) (by decide)).1 _ (.str ⟨[32], [34, 97, 34], [49], rfl, by simp [WS], .str (.raw (by decide) (by decide) .nil)⟩),
    (h 4 1 (by decide) (by decide)).2.1 (.other (j := .int 1) ⟨[], [49], [], rfl, by simp [WS], ?_⟩ (by simp)),
    (h 2 1 (by decide) (by decide)).1 _ (.nothing ?_)⟩
  · have : wrap256 1 = 1 := by decide
    rw [← this]
    exact .int (.nonneg (n := 1) ⟨by simp, by intro c hc; simp at hc; subst hc; constructor <;> decide, by simp, rfl⟩)
  · rintro j ⟨w, t, r, e, hw, ht⟩
    obtain ⟨u, st, h⟩ := begins_accepted (r := r) good_layout hw ht
    rw [← e] at h
    revert h
    simp only [List.drop_succ_cons, List.drop_zero, List.take_succ_cons, List.take_zero]
    have : parseValue ⟨7, 0, 3⟩ 2 ⟨[97], []⟩ = .err .value ⟨[97], []⟩ := rfl
    simp [this]

/-- If the parse hook of json has no defined outcome, neither have the entry points. -/
theorem json_ub (E : JsonTool.Env) (L : Layout) (vs : List Value) (h : ∀ v ∈ vs, FlatArg v) (u : UB) (hu : parseArgs E vs = .ub u) :
    opRun (JsonTool.op E) L (Value.print (.arr vs)) = .ub u ∧ opGas (JsonTool.op E) L (Value.print (.arr vs)) = .ub u := by
  have hp := parse_flat L vs h
  have h1 : (JsonTool.op E).parse (JsonTool.op E).init vs = ((JsonTool.op E).init, .ub u) := by simp [JsonTool.op, hu]
  have hck := check_fail (H := JsonTool.op E) (o := ⟨false, false, .arr vs, .arr [], (JsonTool.op E).init, []⟩) rfl rfl h1 (by simp)
  constructor
  · simp only [opRun, construct_of hp, Res.ok_bind, copyTop, start, hck]
  · simp only [opGas, construct_of hp, Res.ok_bind, copyTop, getGas, hck]

/-- C104 is false: `parseString` for a range with another JSON text, here `1`. -/
theorem C104_string_false (E : JsonTool.Env) (L : Layout) :
    opRun (JsonTool.op E) L (argsString [49] 0 1) = .ub .badUnion ∧ opGas (JsonTool.op E) L (argsString [49] 0 1) = .ub .badUnion := by
  refine json_ub E L _ ?_ _ ?_
  · intro v hv
    simp only [List.mem_cons, List.not_mem_nil, or_false] at hv
    rcases hv with rfl | rfl | rfl | rfl
    exacts [.inl ⟨_, rfl⟩, .inl ⟨_, rfl⟩, IsInt.flat ⟨by decide, by decide⟩, IsInt.flat ⟨by decide, by decide⟩]
  · have h : Json.parse E.L ([49] ++ []) = .ok ⟨true, .int 1⟩ := by
      have := (C28_integers E.L (t := [49]) (r := []) (z := 1) (.nonneg (n := 1) ⟨by simp, by intro c hc; simp at hc; subst hc; constructor <;> decide, by simp, rfl⟩)
        (by simp [NoDigit])).2
      simpa using this
    have e : stringIn E [49] 0 1 = .ub .badUnion := by
      rw [stringIn_eq _ _ _ _ (by decide) (by decide) (by decide) (by decide)]
      have : subString [49] 0 1 = .ok [49] := by decide
      rw [this, Res.ok_bind]
      simp only [List.append_nil] at h
      simp [JsonTool.parseString, h]
      rfl
    exact e

/-! ### arrays -/

/-- C104 for `arrayGet`, for all tokens: if `parseArray` lists `n` elements, the element of an index from 0 to n-1 is the corresponding part of the list.
What is missing from the full statement: a defined outcome for any other index; the last clause says that there is none. -/
theorem C104_array_partial (E : JsonTool.Env) (data : Bytes) (a b : Int) (x : Bytes) (h : parseArray E data a b = .ok x) : ∃ n, x.length = 16 * n ∧
    (∀ i, i < n → arrayGet E data a b (i : Nat) = .ok ((x.drop (16 * i)).take 16)) ∧
    ∀ z : Int, z < 0 ∨ (n : Int) ≤ z → arrayGet E data a b z = .ub .outOfBounds := by
  have hlen : ∀ t y, encodeToken t = .ok y → y.length = 16 := by
    intro t y hy
    simp only [encodeToken, int32] at hy
    generalize (if t.kind = .string then (1 : Int) else 0) = q at hy
    split at hy
    · rw [Res.ok_bind] at hy
      split at hy
      · rw [Res.ok_bind] at hy
        cases hy
        simp [hex8]
      · cases hy
    · cases hy
  have key : ∀ cs x, encodeAll cs = .ok x → x.length = 16 * cs.length ∧ ∀ (i : Nat) t, cs[i]? = some t → encodeToken t = .ok ((x.drop (16 * i)).take 16) := by
    intro cs
    induction cs with
    | nil => intro x hx; cases hx; simp
    | cons t cs ih =>
      intro x hx
      rw [encodeAll] at hx
      obtain ⟨y, hy, hx⟩ := Res.bind_eq_ok.mp hx
      obtain ⟨z, hz, hx⟩ := Res.bind_eq_ok.mp hx
      cases hx
      have hl := hlen t y hy
      obtain ⟨h1, h2⟩ := ih z hz
      refine ⟨by simp only [List.length_append, List.length_cons]; omega, ?_⟩
      intro i u hu
      cases i with
      | zero =>
        simp only [List.getElem?_cons_zero, Option.some.injEq] at hu
        subst hu
        rw [hy, Nat.mul_zero, List.drop_zero, List.take_append_of_le_length (by omega), List.take_of_length_le (by omega)]
      | succ i =>
        rw [List.getElem?_cons_succ] at hu
        rw [h2 i u hu, List.drop_append, List.drop_eq_nil_of_le (as := y) (by omega), List.nil_append, hl, show 16 * (i + 1) - 16 = 16 * i by omega]
  obtain ⟨cs, hc, hx⟩ := Res.bind_eq_ok.mp h
  obtain ⟨h1, h2⟩ := key cs x hx
  refine ⟨cs.length, h1, ?_, ?_⟩
  · intro i hi
    rw [arrayGet, hc, Res.ok_bind, if_neg (by omega), Int.toNat_natCast, List.getElem?_eq_getElem hi]
    exact h2 i _ (List.getElem?_eq_getElem hi)
  · intro z hz
    rw [arrayGet, hc, Res.ok_bind]
    by_cases h3 : z < 0
    · rw [if_pos h3]
    · rw [if_neg h3, List.getElem?_eq_none (by omega)]

/-- A tokenizer for one text. -/
def tokenizer (data : Bytes) (ts : List Tok) : JsonTool.Env := ⟨fun d _ _ => if d = data then some ts else none, ⟨7, 0, 3⟩, id, fun _ _ _ => rfl⟩

/-- `[7,"a"]` -/
example : parseArray (tokenizer [91, 55, 44, 34, 97, 34, 93] [⟨.array, 0, 7⟩, ⟨.primitive, 1, 2⟩, ⟨.string, 4, 5⟩]) [91, 55, 44, 34, 97, 34, 93] 0 7 =
    .ok ([48, 48, 48, 48, 48, 48, 48, 49, 48, 48, 48, 48, 48, 48, 48, 50] ++ [48, 48, 48, 48, 48, 48, 48, 51, 48, 48, 48, 48, 48, 48, 48, 54]) := by
  decide +kernel

/-- C104 is false: index 0 of the array `[]`. -/
theorem C104_array_false (E : JsonTool.Env) (L : Layout) (hj : E.jsmn [91, 93] 0 2 = some [⟨.array, 0, 2⟩]) :
    opRun (JsonTool.op E) L (argsArray [91, 93] 0 2 0) = .ub .outOfBounds ∧ opGas (JsonTool.op E) L (argsArray [91, 93] 0 2 0) = .ub .outOfBounds := by
  refine json_ub E L _ ?_ _ ?_
  · intro v hv
    simp only [List.mem_cons, List.not_mem_nil, or_false] at hv
    rcases hv with rfl | rfl | rfl | rfl | rfl
    exacts [.inl ⟨_, rfl⟩, .inl ⟨_, rfl⟩, IsInt.flat ⟨by decide, by decide⟩, IsInt.flat ⟨by decide, by decide⟩, IsInt.flat ⟨by decide, by decide⟩]
  · have h : arrayGet E [91, 93] 0 2 0 = .ub .outOfBounds := by
      simp [arrayGet, arrayTokens, internalParse, hj, arrayLoop]
    have h0 : Value.argAt [.str nArrayGet, .str [91, 93], .int 0, .int 2, .int 0] 0 = .ok (.str nArrayGet) := rfl
    have h1 : Value.argAt [.str nArrayGet, .str [91, 93], .int 0, .int 2, .int 0] 1 = .ok (.str [91, 93]) := rfl
    have h2 : Value.argAt [.str nArrayGet, .str [91, 93], .int 0, .int 2, .int 0] 2 = .ok (.int 0) := rfl
    have h3 : Value.argAt [.str nArrayGet, .str [91, 93], .int 0, .int 2, .int 0] 3 = .ok (.int 2) := rfl
    have h4 : Value.argAt [.str nArrayGet, .str [91, 93], .int 0, .int 2, .int 0] 4 = .ok (.int 0) := rfl
    simp only [parseArgs, h0, h1, h2, h3, h4, Value.toStr, Value.toInteger, Res.ok_bind, if_neg names_ne.1, if_neg names_ne.2.1, if_true]
    rw [E.hconv 0 (by decide) (by decide), E.hconv 2 (by decide) (by decide), h]
    rfl

example (L : Layout) := C104_array_false (tokenizer [91, 93] [⟨.array, 0, 2⟩]) L rfl

/-! ### objects -/

theorem getKey_around (E : JsonTool.Env) {data : Bytes} {t : Tok} :
    (∀ k, Around data t.start t.stop k → getKey E data t = JsonTool.parseString E.L k ∧ k.length ≤ data.length + 1) ∧
    ((∀ k, ¬ Around data t.start t.stop k) → getKey E data t = .ub .outOfBounds) := by
  constructor
  · rintro k ⟨p, r, h1, h2, h3⟩
    have hl := congrArg List.length h1
    simp only [List.length_append, List.length_cons, List.length_nil] at hl
    refine ⟨?_, by omega⟩
    rw [getKey, if_pos (by omega), h1, show (t.start - 1).toNat = p.length by omega, List.drop_left, show ((t.stop + 1) - (t.start - 1)).toNat = k.length by omega,
      List.take_left]
  · intro h
    rw [getKey, if_neg]
    rintro ⟨h1, h2, h3⟩
    refine h (((data ++ [0]).drop (t.start - 1).toNat).take ((t.stop + 1) - (t.start - 1)).toNat)
      ⟨(data ++ [0]).take (t.start - 1).toNat, ((data ++ [0]).drop (t.start - 1).toNat).drop ((t.stop + 1) - (t.start - 1)).toNat, ?_, ?_, ?_⟩
    · rw [List.take_append_drop, List.take_append_drop]
    · rw [List.length_take, List.length_append, List.length_singleton]
      omega
    · rw [List.length_take, List.length_take, List.length_drop, List.length_append, List.length_singleton]
      omega

theorem getKey_names (E : JsonTool.Env) (hL : E.L.Good) {data : Bytes} (hlen : data.length < 1073643498) (t : Tok) :
    (∀ s, Names data t s → getKey E data t = .ok s) ∧ ((∀ s, ¬ Names data t s) → ∃ u, getKey E data t = .ub u) := by
  constructor
  · rintro s ⟨k, h1, h2⟩
    obtain ⟨e, hl⟩ := (getKey_around E).1 k h1
    rw [e]
    exact (parseString_reads hL (by omega)).1 s h2
  · intro h
    by_cases hk : ∃ k, Around data t.start t.stop k
    · obtain ⟨k, hk⟩ := hk
      obtain ⟨e, hl⟩ := (getKey_around E).1 k hk
      obtain ⟨_, h2, o, ho⟩ := parseString_reads hL (k := k) (by omega)
      cases o with
      | some s => exact absurd ⟨k, hk, ho⟩ (h s)
      | none => exact ⟨_, by rw [e]; exact h2 ho⟩
    · exact ⟨_, (getKey_around E).2 (fun k h => hk ⟨k, h⟩)⟩

/-- C104 for `objectGet`, for all tokens: if every other element that `parseArray` goes through can be read as a name, the last one with the
given name decides, and the result is what `arrayGet` gives for the position behind it; without such a name it is sixteen zeros. What is missing from the full
statement: a defined outcome if one of the elements cannot be read as a name; the last clause says that there is none, whatever name is asked for. -/
theorem C104_object_partial (E : JsonTool.Env) (hL : E.L.Good) (data : Bytes) (hlen : data.length < 1073643498) (a b : Int) (cs : List Tok)
    (hcs : arrayTokens E data a b = .ok cs) (key : Bytes) :
    (∀ name : Tok → Bytes, (∀ p ∈ pairs cs, Names data p.1 (name p.1)) →
      (∀ pre p post, pairs cs = pre ++ p :: post → name p.1 = key → (∀ q ∈ post, name q.1 ≠ key) →
        objectGet E data a b key = arrayGet E data a b (2 * pre.length + 1 : Nat)) ∧
      ((∀ p ∈ pairs cs, name p.1 ≠ key) → objectGet E data a b key = .ok (List.replicate 16 48))) ∧
    ((∃ p ∈ pairs cs, ∀ s, ¬ Names data p.1 s) → ∃ u, objectGet E data a b key = .ub u) := by
  have ho := objectTokens_eq E data a b hcs
  refine ⟨?_, ?_⟩
  · intro name hn
    rw [bindAll_ok E data name (pairs cs) (fun p hp => (getKey_names E hL hlen p.1).1 _ (hn p hp)), List.append_nil] at ho
    refine ⟨?_, ?_⟩
    · intro pre p post hp hk hq
      obtain ⟨_, h2⟩ := pairs_at cs p pre post hp
      rw [arrayGet, hcs, Res.ok_bind, if_neg (by omega), Int.toNat_natCast, h2, objectGet, ho, Res.ok_bind, hp, List.map_append, List.map_cons, hk, lookup_last]
      intro q hq'
      obtain ⟨q0, hq0, rfl⟩ := List.mem_map.mp hq'
      exact hq q0 hq0
    · intro hk
      rw [objectGet, ho, Res.ok_bind, lookup_absent]
      · decide +kernel
      · intro q hq'
        obtain ⟨q0, hq0, rfl⟩ := List.mem_map.mp hq'
        exact hk q0 hq0
  · rintro ⟨p, hp, hb⟩
    obtain ⟨u, hu⟩ := bindAll_ub E data (pairs cs) (fun q _ => by
      by_cases hq : ∃ s, Names data q.1 s
      · obtain ⟨s, hq⟩ := hq
        exact .inl ⟨s, (getKey_names E hL hlen q.1).1 s hq⟩
      · exact .inr ((getKey_names E hL hlen q.1).2 (fun s h => hq ⟨s, h⟩))) ⟨p, hp, (getKey_names E hL hlen p.1).2 hb⟩ []
    exact ⟨u, by rw [objectGet, ho, hu]; rfl⟩

/-- `{"a":7}` -/
example : objectGet (tokenizer [123, 34, 97, 34, 58, 55, 125] [⟨.object, 0, 7⟩, ⟨.string, 2, 3⟩, ⟨.primitive, 5, 6⟩]) [123, 34, 97, 34, 58, 55, 125] 0 7 [97] =
    arrayGet (tokenizer [123, 34, 97, 34, 58, 55, 125] [⟨.object, 0, 7⟩, ⟨.string, 2, 3⟩, ⟨.primitive, 5, 6⟩]) [123, 34, 97, 34, 58, 55, 125] 0 7 1 := by
  refine ((C104_object_partial _ good_layout _ (by decide) 0 7 [⟨.string, 2, 3⟩, ⟨.primitive, 5, 6⟩] (by decide +kernel) [97]).1 (fun _ => [97]) ?_).1 [] _ [] rfl rfl (by simp)
  intro p hp
  simp only [pairs, List.mem_singleton] at hp
  subst hp
  exact ⟨[34, 97, 34], ⟨[123], [58, 55, 125, 0], rfl, rfl, rfl⟩, .str ⟨[], [34, 97, 34], [], rfl, by simp [WS], .str (.raw (by decide) (by decide) .nil)⟩⟩

/-- `{ 1 : 2}`, of which the tokenizer makes an object with a primitive as key. -/
def oneTwo : Bytes := [123, 32, 49, 32, 58, 32, 50, 125]
def oneTwoTokens : List Tok := [⟨.object, 0, 8⟩, ⟨.primitive, 2, 3⟩, ⟨.primitive, 6, 7⟩]

/-- C104 is false: whatever key is looked up in `{ 1 : 2}`. -/
theorem C104_key_false (E : JsonTool.Env) (hL : E.L.Good) (hj : E.jsmn oneTwo 0 8 = some oneTwoTokens) (key : Bytes) : ∃ u, objectGet E oneTwo 0 8 key = .ub u := by
  refine (C104_object_partial E hL oneTwo (by decide) 0 8 [⟨.primitive, 2, 3⟩, ⟨.primitive, 6, 7⟩] ?_ key).2 ⟨_, List.mem_cons_self, ?_⟩
  · simp [arrayTokens, internalParse, hj, oneTwoTokens, arrayLoop]
  · rintro s ⟨k, ⟨p, r, h1, h2, h3⟩, h4⟩
    have hk : k = [32, 49, 32] := by
      match p, h1, h2, h3 with
      | [c], h1, _, h3 =>
        simp only [oneTwo, List.cons_append, List.nil_append, List.cons.injEq] at h1
        have hl : k.length = 3 := by simp at h3; omega
        have := congrArg (List.take 3) h1.2
        rw [← hl, List.take_left, hl] at this
        rw [← this]
        rfl
    subst hk
    have hb : Begins [32, 49, 32] (.int 1) := by
      refine ⟨[32], [49], [32], rfl, by simp [WS], ?_⟩
      have : wrap256 1 = 1 := by decide
      rw [← this]
      exact .int (.nonneg (n := 1) ⟨by simp, by intro c hc; simp at hc; subst hc; constructor <;> decide, by simp, rfl⟩)
    have hp := (parseString_reads hL (k := [32, 49, 32]) (by decide)).1 s h4
    rw [(parseString_reads hL (k := [32, 49, 32]) (by decide)).2.1 (.other hb (by simp))] at hp
    cases hp

example := C104_key_false (tokenizer oneTwo oneTwoTokens) good_layout rfl [49]

end Eni.Props
