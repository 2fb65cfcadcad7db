import Verif.Model.JsonTests
import Verif.Props.JsonTool
/-!
# C136: the assertions of the JSON tests pass only for the expected result
-/
namespace Eni.Props
open Spec JsonTests

/-- The lower-case digits that the operation writes. -/
def LowerHex (x : Bytes) : Prop := ∀ c ∈ x, (48 ≤ c ∧ c ≤ 57) ∨ (97 ≤ c ∧ c ≤ 102)

/-- The number that digits stand for. -/
def hexNumber (x : Bytes) : Nat := x.foldl (fun n c => 16 * n + (hexOf c).getD 0) 0

/-- What is assumed of `int(b, 16)`. -/
def ReadsHex (int16 : Bytes → Option Int) : Prop := ∀ x, x ≠ [] → LowerHex x → int16 x = some (hexNumber x)

/-- The text begins with the codes of the numbers. -/
inductive Codes (int16 : Bytes → Option Int) : List Int → Bytes → Prop
  | nil {r} : Codes int16 [] r
  | cons {p v vs r} : p.length = 8 → int16 p = some v → Codes int16 vs r → Codes int16 (v :: vs) (p ++ r)

theorem u32_ok {f : Bytes → Option Int} {b : Bytes} {v : Int} : u32hex2int f b = .ok v ↔ b.length = 8 ∧ f b = some v := by
  unfold u32hex2int
  by_cases h : b.length = 8
  · rw [if_neg (by simpa using h)]
    cases f b <;> simp [h]
  · rw [if_pos h]
    simp [h]

theorem actual_ok (f : Bytes → Option Int) (x : Bytes) (vs : List Int) : ∀ i, actual f x i vs.length = .ok vs ↔ Codes f vs (x.drop i) := by
  induction vs with
  | nil => intro i; exact ⟨fun _ => .nil, fun _ => rfl⟩
  | cons v vs ih =>
    intro i
    have e : slice x i (i + 8) = (x.drop i).take 8 := by unfold slice; congr 1; omega
    have d : x.drop i = (x.drop i).take 8 ++ x.drop (i + 8) := by
      rw [← List.drop_drop, List.take_append_drop]
    simp only [List.length_cons, actual, e]
    constructor
    · intro h
      cases hu : u32hex2int f ((x.drop i).take 8) with
      | error t => rw [hu] at h; cases h
      | ok v' =>
        rw [hu] at h
        cases ha : actual f x (i + 8) vs.length with
        | error t => simp [ha, bind, Except.bind] at h
        | ok vs' =>
          simp only [ha, bind, Except.bind, pure, Except.pure, Except.ok.injEq, List.cons.injEq] at h
          obtain ⟨rfl, rfl⟩ := h
          obtain ⟨h1, h2⟩ := u32_ok.mp hu
          rw [d]
          exact .cons h1 h2 ((ih _).mp ha)
    · intro h
      generalize hy : x.drop i = y at h
      cases h with
      | @cons p _ _ r h1 h2 h3 =>
        have ep : (p ++ r).take 8 = p := by rw [← h1]; simp
        have er : x.drop (i + 8) = r := by rw [← List.drop_drop, hy, ← h1]; simp
        rw [ep, u32_ok.mpr ⟨h1, h2⟩, (ih (i + 8)).mpr (er ▸ h3)]
        rfl

theorem u32_error {f : Bytes → Option Int} {b : Bytes} {t : Outcome} (h : u32hex2int f b = .error t) : t ≠ .pass := by
  unfold u32hex2int at h
  split at h
  · cases h; simp
  · cases hf : f b with
    | some z => rw [hf] at h; cases h
    | none => rw [hf] at h; cases h; simp

theorem actual_error {f : Bytes → Option Int} {x : Bytes} {t : Outcome} : ∀ {n i}, actual f x i n = .error t → t ≠ .pass := by
  intro n
  induction n with
  | zero => intro i h; cases h
  | succ n ih =>
    intro i h
    simp only [actual] at h
    cases hu : u32hex2int f (slice x i (i + 8)) with
    | error t' =>
      rw [hu] at h
      cases h
      exact u32_error hu
    | ok v =>
      rw [hu] at h
      cases ha : actual f x (i + 8) n with
      | error t' =>
        simp only [ha, bind, Except.bind, Except.error.injEq] at h
        subst h
        exact ih ha
      | ok vs => simp [ha, bind, Except.bind, pure, Except.pure] at h

/-- C136, exactly: `assertRanges` passes if the first text begins with the codes of the expected numbers. Nothing behind them is looked at. -/
theorem C136_ranges (f : Bytes → Option Int) (x : Bytes) (o : List Bytes) (vs : List Int) : assertRanges f (x :: o) vs = .pass ↔ Codes f vs x := by
  by_cases hv : vs = []
  · subst hv
    exact ⟨fun _ => .nil, fun _ => rfl⟩
  · have := actual_ok f x vs 0
    rw [List.drop_zero] at this
    rw [← this]
    simp only [assertRanges, if_neg hv, first]
    cases ha : actual f x 0 vs.length with
    | error t =>
      have := actual_error ha
      simpa [bind, Except.bind, ha] using this
    | ok ws =>
      by_cases hw : ws = vs <;> simp [bind, Except.bind, pure, Except.pure, ha, hw]

/-- C136 is false: whatever follows the expected ranges, the assertion passes as well. -/
theorem C136_extra_false (f : Bytes → Option Int) (x y : Bytes) (o o' : List Bytes) (vs : List Int) (h : assertRanges f (x :: o) vs = .pass) :
    assertRanges f ((x ++ y) :: o') vs = .pass := by
  rw [C136_ranges] at h ⊢
  induction h with
  | nil => exact .nil
  | cons h1 h2 _ ih => rw [List.append_assoc]; exact .cons h1 h2 ih

theorem hexNumber_snoc (x : Bytes) (c : UInt8) : hexNumber (x ++ [c]) = 16 * hexNumber x + (hexOf c).getD 0 := by
  simp [hexNumber]

theorem digit_inj : ∀ c d : UInt8, ((48 ≤ c ∧ c ≤ 57) ∨ (97 ≤ c ∧ c ≤ 102)) → ((48 ≤ d ∧ d ≤ 57) ∨ (97 ≤ d ∧ d ≤ 102)) →
    (hexOf c).getD 0 < 16 ∧ ((hexOf c).getD 0 = (hexOf d).getD 0 → c = d) := by
  have key : ∀ c : Fin 256, let c : UInt8 := UInt8.ofNat c.val; ((48 ≤ c ∧ c ≤ 57) ∨ (97 ≤ c ∧ c ≤ 102)) →
      (hexOf c).getD 0 < 16 ∧ c = (if (hexOf c).getD 0 < 10 then (48 + (hexOf c).getD 0).toUInt8 else (87 + (hexOf c).getD 0).toUInt8) := by
    decide +kernel
  have key' : ∀ c : UInt8, ((48 ≤ c ∧ c ≤ 57) ∨ (97 ≤ c ∧ c ≤ 102)) →
      (hexOf c).getD 0 < 16 ∧ c = (if (hexOf c).getD 0 < 10 then (48 + (hexOf c).getD 0).toUInt8 else (87 + (hexOf c).getD 0).toUInt8) := by
    intro c
    have := key ⟨c.toNat, c.toNat_lt⟩
    simpa using this
  intro c d hc hd
  refine ⟨(key' c hc).1, fun e => ?_⟩
  rw [(key' c hc).2, (key' d hd).2, e]

theorem hexNumber_inj : ∀ (x y : Bytes), x.length = y.length → LowerHex x → LowerHex y → hexNumber x = hexNumber y → x = y := by
  intro x
  induction x using List.reverseRecOn with
  | nil => intro y h _ _ _; exact (List.length_eq_zero_iff.mp h.symm).symm
  | append_singleton x c ih =>
    intro y hl hx hy h
    rcases List.eq_nil_or_concat y with rfl | ⟨z, d, rfl⟩
    · simp at hl
    · rw [List.concat_eq_append] at *
      rw [hexNumber_snoc, hexNumber_snoc] at h
      have hc := digit_inj c d (hx c (by simp)) (hy d (by simp))
      have hd := digit_inj d c (hy d (by simp)) (hx c (by simp))
      have e1 : (hexOf c).getD 0 = (hexOf d).getD 0 := by omega
      have e2 : hexNumber x = hexNumber z := by omega
      rw [hc.2 e1, ih z (by simpa using hl) (fun a ha => hx a (by simp [ha])) (fun a ha => hy a (by simp [ha])) e2]

/-- C136, the part that holds: among the texts of the operation that are as long as expected, only one passes. -/
theorem C136_ranges_partial (f : Bytes → Option Int) (hf : ReadsHex f) (x y : Bytes) (o o' : List Bytes) (vs : List Int) (hx : LowerHex x) (hy : LowerHex y)
    (lx : x.length = 8 * vs.length) (ly : y.length = 8 * vs.length) (h : assertRanges f (x :: o) vs = .pass) (h' : assertRanges f (y :: o') vs = .pass) :
    x = y := by
  rw [C136_ranges] at h h'
  induction h generalizing y with
  | @nil r =>
    rw [List.length_eq_zero_iff.mp lx, List.length_eq_zero_iff.mp ly]
  | @cons p v vs r h1 h2 _ ih =>
    cases h' with
    | @cons q _ _ s g1 g2 g3 =>
    have hp : LowerHex p := fun c hc => hx c (by simp [hc])
    have hq : LowerHex q := fun c hc => hy c (by simp [hc])
    rw [hf p (by rintro rfl; simp at h1) hp] at h2
    rw [hf q (by rintro rfl; simp at g1) hq] at g2
    have e : hexNumber p = hexNumber q := by
      have := h2.trans g2.symm
      exact Int.ofNat_inj.mp (Option.some.inj this)
    rw [hexNumber_inj p q (by omega) hp hq e]
    congr 1
    refine ih s (fun c hc => hx c (by simp [hc])) (fun c hc => hy c (by simp [hc])) ?_ ?_ g3
    · simp only [List.length_append, List.length_cons] at lx; omega
    · simp only [List.length_append, List.length_cons] at ly; omega

/-- C136, one range: `assertRange` passes exactly if the first text is the code of the range. -/
theorem C136_range (f : Bytes → Option Int) (hf : ReadsHex f) (x : Bytes) (o : List Bytes) (a b : Nat) (hx : LowerHex x) :
    assertRange f (x :: o) a b = .pass ↔ RangeCode a b x := by
  have es : slice x 0 8 = x.take 8 := rfl
  have key : assertRange f (x :: o) a b = .pass ↔ u32hex2int f (x.take 8) = .ok (a : Int) ∧ u32hex2int f (x.drop 8) = .ok (b : Int) := by
    simp only [assertRange, first, es]
    cases h1 : u32hex2int f (x.take 8) with
    | error t => simpa [bind, Except.bind, es, h1] using u32_error h1
    | ok v =>
      cases h2 : u32hex2int f (x.drop 8) with
      | error t => simpa [bind, Except.bind, es, h1, h2] using u32_error h2
      | ok w =>
        by_cases hv : v = a <;> by_cases hw : w = b <;> simp [bind, Except.bind, pure, Except.pure, es, h1, h2, hv, hw]
  have ht : LowerHex (x.take 8) := fun c hc => hx c (List.mem_of_mem_take hc)
  have hd : LowerHex (x.drop 8) := fun c hc => hx c (List.mem_of_mem_drop hc)
  rw [key, u32_ok, u32_ok]
  constructor
  · rintro ⟨⟨l1, v1⟩, l2, v2⟩
    rw [hf _ (by intro e; rw [e] at l1; simp at l1) ht] at v1
    rw [hf _ (by intro e; rw [e] at l2; simp at l2) hd] at v2
    refine ⟨?_, hx, Int.ofNat_inj.mp (Option.some.inj v1), Int.ofNat_inj.mp (Option.some.inj v2)⟩
    rw [List.length_drop] at l2
    omega
  · rintro ⟨l, -, v1, v2⟩
    have l1 : (x.take 8).length = 8 := by rw [List.length_take]; omega
    have l2 : (x.drop 8).length = 8 := by rw [List.length_drop]; omega
    refine ⟨⟨l1, ?_⟩, l2, ?_⟩
    · rw [hf _ (by intro e; rw [e] at l1; simp at l1) ht]
      exact congrArg (fun n : Nat => some (n : Int)) v1
    · rw [hf _ (by intro e; rw [e] at l2; simp at l2) hd]
      exact congrArg (fun n : Nat => some (n : Int)) v2

/-- C136, one range, of the operation: for a token that the operation encoded, the assertion passes exactly for the positions of the token. -/
theorem C136_token (f : Bytes → Option Int) (hf : ReadsHex f) (t : JsonTool.Tok) (a b a' b' : Nat) (o : List Bytes)
    (ha : t.start - (if t.kind = .string then 1 else 0) = a) (hb : t.stop + (if t.kind = .string then 1 else 0) = b) (h1 : a < 2 ^ 31) (h2 : b < 2 ^ 31) :
    ∃ x, JsonTool.encodeToken t = .ok x ∧ (assertRange f (x :: o) a' b' = .pass ↔ a' = a ∧ b' = b) := by
  obtain ⟨x, hx, hr⟩ := C51_encode t a b ha hb h1 h2
  refine ⟨x, hx, ?_⟩
  rw [C136_range f hf x o a' b' hr.2.1]
  constructor
  · rintro ⟨-, -, g1, g2⟩
    exact ⟨g1.symm.trans hr.2.2.1, g2.symm.trans hr.2.2.2⟩
  · rintro ⟨rfl, rfl⟩
    exact hr

/-- The positions that the operation reports for a token. -/
def positions (t : JsonTool.Tok) : List Int :=
  [t.start - (if t.kind = .string then 1 else 0), t.stop + (if t.kind = .string then 1 else 0)]

/-- C136 is false of the results of `parseArray`: the assertion passes for the positions of any number of the first elements, also if the others are left out. -/
theorem C136_prefix_false (f : Bytes → Option Int) (hf : ReadsHex f) (ts : List JsonTool.Tok) (hp : ∀ t ∈ ts, ∀ z ∈ positions t, 0 ≤ z ∧ z < 2 ^ 31) (k : Nat) :
    ∃ x, JsonTool.encodeAll ts = .ok x ∧ ∀ o, assertRanges f (x :: o) ((ts.take k).flatMap positions) = .pass := by
  have key : ∀ (ts : List JsonTool.Tok), (∀ t ∈ ts, ∀ z ∈ positions t, 0 ≤ z ∧ z < 2 ^ 31) → ∃ x, JsonTool.encodeAll ts = .ok x ∧
      ∀ k, Codes f ((ts.take k).flatMap positions) x := by
    intro ts
    induction ts with
    | nil => intro _; exact ⟨[], rfl, fun k => by rw [List.take_nil]; exact .nil⟩
    | cons t ts ih =>
      intro hp
      obtain ⟨y, hy, hc⟩ := ih fun u hu => hp u (List.mem_cons_of_mem _ hu)
      obtain ⟨a1, a2⟩ := hp t List.mem_cons_self _ (List.mem_cons_self : t.start - (if t.kind = .string then 1 else 0) ∈ positions t)
      obtain ⟨b1, b2⟩ := hp t List.mem_cons_self (t.stop + (if t.kind = .string then 1 else 0)) (by simp [positions])
      obtain ⟨a, ha⟩ := Int.eq_ofNat_of_zero_le a1
      obtain ⟨b, hb⟩ := Int.eq_ofNat_of_zero_le b1
      obtain ⟨x, hx, l, hd, v1, v2⟩ := C51_encode t a b ha hb (by omega) (by omega)
      refine ⟨x ++ y, by simp [JsonTool.encodeAll, hx, hy, bind, Res.bind, pure], fun k => ?_⟩
      cases k with
      | zero => exact .nil
      | succ k =>
        have l1 : (x.take 8).length = 8 := by rw [List.length_take]; omega
        have l2 : (x.drop 8).length = 8 := by rw [List.length_drop]; omega
        rw [List.take_succ_cons, List.flatMap_cons, positions, ha, hb, ← List.take_append_drop 8 x, List.append_assoc]
        refine .cons l1 ?_ (.cons l2 ?_ (hc k))
        · rw [hf _ (by intro e; rw [e] at l1; simp at l1) fun c hc => hd c (List.mem_of_mem_take hc)]
          exact congrArg (fun n : Nat => some (n : Int)) v1
        · rw [hf _ (by intro e; rw [e] at l2; simp at l2) fun c hc => hd c (List.mem_of_mem_drop hc)]
          exact congrArg (fun n : Nat => some (n : Int)) v2
  obtain ⟨x, hx, hc⟩ := key ts hp
  exact ⟨x, hx, fun o => (C136_ranges f x o _).mpr (hc k)⟩

/-- A function as assumed. -/
def someInt16 (x : Bytes) : Option Int := some (hexNumber x)

example : ReadsHex someInt16 := fun _ _ _ => rfl
example : assertRange someInt16 ["000000060000000d".toUTF8.toList] 6 13 = .pass ∧ assertRange someInt16 ["000000060000000d0".toUTF8.toList] 6 13 = .fail ∧
    assertRange someInt16 [] 6 13 = .error := by decide +kernel
/-- an array of one string, and one range too many -/
example : assertRanges someInt16 ["000000060000000d".toUTF8.toList] [6, 13] = .pass ∧
    assertRanges someInt16 ["000000060000000d0000000f00000011".toUTF8.toList] [6, 13] = .pass ∧
    assertRanges someInt16 ["000000060000000c".toUTF8.toList] [6, 13] = .fail ∧ assertRanges someInt16 ["00000006".toUTF8.toList] [6, 13] = .fail := by decide +kernel
example := C136_token someInt16 (fun _ _ _ => rfl) ⟨.string, 11, 17⟩ 10 18 10 18 [] rfl rfl (by decide) (by decide)
/-- the array of test_nested_containers.py 33-37 with an element more -/
example := C136_prefix_false someInt16 (fun _ _ _ => rfl) [⟨.array, 1, 6⟩, ⟨.array, 8, 18⟩, ⟨.string, 21, 22⟩] (by decide) 2
example : LowerHex "000000060000000d".toUTF8.toList := by unfold LowerHex; decide +kernel

end Eni.Props
