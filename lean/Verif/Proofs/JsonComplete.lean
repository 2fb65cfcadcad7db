import Verif.Proofs.JsonSound
/-!
# The parser accepts every text of the grammar
-/
namespace Eni
namespace Json
open Spec

set_option linter.unusedSimpArgs false

/-- the literals lie below the end of the buffer -/
def Layout.Good (L : Layout) : Prop := L.rue + 3 ≤ L.bufEnd ∧ L.alse + 4 ≤ L.bufEnd

/-! ### leading white space is irrelevant -/

theorem parseString_dropWs (k : Bool) (it : Bytes) (ev : List Ev) : parseString k ⟨dropWs it, ev⟩ = parseString k ⟨it, ev⟩ := by
  unfold parseString
  simp [bind_apply, skipWs_apply, dropWs_dropWs]

theorem parseArray_dropWs (pv : P Unit) (it : Bytes) (ev : List Ev) : parseArray pv ⟨dropWs it, ev⟩ = parseArray pv ⟨it, ev⟩ := by
  unfold parseArray
  simp [bind_apply, skipWs_apply, dropWs_dropWs]

theorem parseObject_dropWs (pv : P Unit) (it : Bytes) (ev : List Ev) : parseObject pv ⟨dropWs it, ev⟩ = parseObject pv ⟨it, ev⟩ := by
  unfold parseObject
  simp [bind_apply, skipWs_apply, dropWs_dropWs]

theorem parseValue_dropWs (L : Layout) (n : Nat) (it : Bytes) (ev : List Ev) :
    parseValue L n ⟨dropWs it, ev⟩ = parseValue L n ⟨it, ev⟩ := by
  cases n with
  | zero => rfl
  | succ n =>
    unfold parseValue
    rw [bind_apply, parseObject_dropWs, bind_apply]

theorem elemsLoop_dropWs (L : Layout) (n fuel : Nat) (it : Bytes) (ev : List Ev) :
    elemsLoop (parseValue L n) fuel ⟨dropWs it, ev⟩ = elemsLoop (parseValue L n) fuel ⟨it, ev⟩ := by
  cases fuel with
  | zero => rfl
  | succ fuel =>
    unfold elemsLoop
    rw [bind_apply, parseValue_dropWs, bind_apply]

theorem membersLoop_dropWs (pv : P Unit) (fuel : Nat) (it : Bytes) (ev : List Ev) :
    membersLoop pv fuel ⟨dropWs it, ev⟩ = membersLoop pv fuel ⟨it, ev⟩ := by
  cases fuel with
  | zero => rfl
  | succ fuel =>
    unfold membersLoop
    rw [bind_apply, parseString_dropWs, bind_apply]

theorem dropWs_length (it : Bytes) : (dropWs it).length ≤ it.length := by
  obtain ⟨w, _, h, _⟩ := dropWs_spec it
  conv => rhs; rw [h]
  simp

/-! ### alternatives that do not apply -/

theorem parseObject_miss (pv : P Unit) {it : Bytes} (ev : List Ev) (h : (dropWs it).head? ≠ some 123) :
    parseObject pv ⟨it, ev⟩ = .ok false ⟨dropWs it, ev⟩ := by
  unfold parseObject
  simp [bind_apply, skipWs_apply, haveC_miss (c := 123) (st := ⟨dropWs it, ev⟩) (by decide) h, pure_apply]

theorem parseArray_miss (pv : P Unit) {it : Bytes} (ev : List Ev) (h : (dropWs it).head? ≠ some 91) :
    parseArray pv ⟨it, ev⟩ = .ok false ⟨dropWs it, ev⟩ := by
  unfold parseArray
  simp [bind_apply, skipWs_apply, haveC_miss (c := 91) (st := ⟨dropWs it, ev⟩) (by decide) h, pure_apply]

theorem parseString_miss (k : Bool) {it : Bytes} (ev : List Ev) (h : (dropWs it).head? ≠ some 34) :
    parseString k ⟨it, ev⟩ = .ok false ⟨dropWs it, ev⟩ := by
  unfold parseString
  simp [bind_apply, skipWs_apply, haveC_miss (c := 34) (st := ⟨dropWs it, ev⟩) (by decide) h, pure_apply]

theorem parseBoolean_miss (L : Layout) {it : Bytes} (ev : List Ev) (h : (dropWs it).head? ≠ some 116) (h' : (dropWs it).head? ≠ some 102) :
    parseBoolean L ⟨it, ev⟩ = .ok false ⟨dropWs it, ev⟩ := by
  unfold parseBoolean
  simp [bind_apply, skipWs_apply, haveC_miss (c := 116) (st := ⟨dropWs it, ev⟩) (by decide) h,
    haveC_miss (c := 102) (st := ⟨dropWs it, ev⟩) (by decide) h', pure_apply]

/-! ### lexical completeness -/

theorem parseEscape_complete {e : Bytes} {x : UInt8} (h : Esc e x) (r : Bytes) (ev : List Ev) :
    parseEscape ⟨e ++ r, ev⟩ = .ok x ⟨r, ev⟩ := by
  cases h with
  | @one c x h =>
    have hc : (c = 34 ∧ x = 34) ∨ (c = 92 ∧ x = 92) ∨ (c = 47 ∧ x = 47) ∨ (c = 98 ∧ x = 8) ∨ (c = 102 ∧ x = 12) ∨ (c = 110 ∧ x = 10) ∨
        (c = 114 ∧ x = 13) ∨ (c = 116 ∧ x = 9) := by
      revert h
      have := forall_byte (p := fun c => ∀ x, escOf c = some x → (c = 34 ∧ x = 34) ∨ (c = 92 ∧ x = 92) ∨ (c = 47 ∧ x = 47) ∨
        (c = 98 ∧ x = 8) ∨ (c = 102 ∧ x = 12) ∨ (c = 110 ∧ x = 10) ∨ (c = 114 ∧ x = 13) ∨ (c = 116 ∧ x = 9)) ?_ c x
      · exact this
      · intro n x h
        have key : ∀ n : Fin 256, ∀ x ∈ escOf (UInt8.ofNat n), ((UInt8.ofNat n) = 34 ∧ x = 34) ∨ ((UInt8.ofNat n) = 92 ∧ x = 92) ∨
          ((UInt8.ofNat n) = 47 ∧ x = 47) ∨
          ((UInt8.ofNat n) = 98 ∧ x = 8) ∨ ((UInt8.ofNat n) = 102 ∧ x = 12) ∨ ((UInt8.ofNat n) = 110 ∧ x = 10) ∨
          ((UInt8.ofNat n) = 114 ∧ x = 13) ∨ ((UInt8.ofNat n) = 116 ∧ x = 9) := by decide +kernel
        exact key n x h
    rcases hc with ⟨rfl, rfl⟩ | ⟨rfl, rfl⟩ | ⟨rfl, rfl⟩ | ⟨rfl, rfl⟩ | ⟨rfl, rfl⟩ | ⟨rfl, rfl⟩ | ⟨rfl, rfl⟩ | ⟨rfl, rfl⟩ <;> rfl
  | @uni h1 h2 h3 h4 n1 n2 n3 n4 e1 e2 e3 e4 =>
    have hx : ∀ {c : UInt8} {n : Nat}, hexOf c = some n → isHex c = true ∧ hexDigit c = n := by
      intro c n h
      have : isHex c = true := by rw [hexOf_isHex, h]; rfl
      refine ⟨this, ?_⟩
      have := hexOf_hexDigit c this
      rw [h] at this
      exact (Option.some.inj this).symm
    obtain ⟨a1, b1⟩ := hx e1
    obtain ⟨a2, b2⟩ := hx e2
    obtain ⟨a3, b3⟩ := hx e3
    obtain ⟨a4, b4⟩ := hx e4
    have hv : validCode (h1 :: h2 :: h3 :: h4 :: r) 0 4 = .ok true := by simp [validCode, peek, a1, a2, a3, a4]
    have : parseEscape ⟨117 :: h1 :: h2 :: h3 :: h4 :: r, ev⟩ = parseCodepoint ⟨h1 :: h2 :: h3 :: h4 :: r, ev⟩ := rfl
    show parseEscape ⟨117 :: h1 :: h2 :: h3 :: h4 :: r, ev⟩ = _
    rw [this, ← codeVal, ← b1, ← b2, ← b3, ← b4]
    simp [parseCodepoint, hv]

theorem strLoop_quote (fuel : Nat) (str r : Bytes) (ev : List Ev) : strLoop (fuel + 1) str ⟨34 :: r, ev⟩ = .ok str ⟨r, ev⟩ := by
  unfold strLoop
  simp [bind_apply, haveC_hit, pure_apply]

theorem strLoop_raw {c : UInt8} (h1 : c ≠ 34) (h2 : c ≠ 92) (fuel : Nat) (str r : Bytes) (ev : List Ev) :
    strLoop (fuel + 1) str ⟨c :: r, ev⟩ = strLoop fuel (str ++ [c]) ⟨r, ev⟩ := by
  conv => lhs; unfold strLoop
  simp [bind_apply, haveC_miss (c := 34) (st := ⟨c :: r, ev⟩) (by decide) (by simpa using h1), atEnd, takeByte,
    haveC_miss (c := 92) (st := ⟨c :: r, ev⟩) (by decide) (by simpa using h2), pure_apply]

theorem strLoop_esc {e : Bytes} {x : UInt8} (h : Esc e x) (fuel : Nat) (str r : Bytes) (ev : List Ev) :
    strLoop (fuel + 1) str ⟨92 :: (e ++ r), ev⟩ = strLoop fuel (str ++ [x]) ⟨r, ev⟩ := by
  conv => lhs; unfold strLoop
  simp [bind_apply, haveC_miss (c := 34) (st := ⟨92 :: (e ++ r), ev⟩) (by decide) (by simp), atEnd, haveC_hit,
    parseEscape_complete h, pure_apply]

theorem strLoop_complete {b s : Bytes} (h : StrBody b s) : ∀ (fuel : Nat) (str r : Bytes) (ev : List Ev), b.length < fuel →
    strLoop fuel str ⟨b ++ 34 :: r, ev⟩ = .ok (str ++ s) ⟨r, ev⟩ := by
  induction h with
  | nil =>
    intro fuel str r ev hf
    obtain ⟨fuel, rfl⟩ : ∃ k, fuel = k + 1 := ⟨fuel - 1, by simp at hf; omega⟩
    simpa using strLoop_quote fuel str r ev
  | @raw c b s h1 h2 _ ih =>
    intro fuel str r ev hf
    obtain ⟨fuel, rfl⟩ : ∃ k, fuel = k + 1 := ⟨fuel - 1, by simp at hf; omega⟩
    rw [List.cons_append, strLoop_raw h1 h2, ih _ _ _ _ (by simp at hf; omega)]
    simp
  | @esc c x b s h1 _ ih =>
    intro fuel str r ev hf
    obtain ⟨fuel, rfl⟩ : ∃ k, fuel = k + 1 := ⟨fuel - 1, by simp at hf; omega⟩
    have := strLoop_esc (Esc.one h1) fuel str (b ++ 34 :: r) ev
    simp only [List.cons_append, List.nil_append] at this ⊢
    rw [this, ih _ _ _ _ (by simp at hf; omega)]
    simp
  | @uni h1 h2 h3 h4 n1 n2 n3 n4 b s e1 e2 e3 e4 _ ih =>
    intro fuel str r ev hf
    obtain ⟨fuel, rfl⟩ : ∃ k, fuel = k + 1 := ⟨fuel - 1, by simp at hf; omega⟩
    have := strLoop_esc (Esc.uni e1 e2 e3 e4) fuel str (b ++ 34 :: r) ev
    simp only [List.cons_append, List.nil_append] at this ⊢
    rw [this, ih _ _ _ _ (by simp at hf; omega)]
    simp

theorem parseString_complete {w b s : Bytes} (hw : WS w) (h : StrBody b s) (k : Bool) (r : Bytes) (ev : List Ev) :
    parseString k ⟨w ++ 34 :: (b ++ 34 :: r), ev⟩ = .ok true ⟨r, ev ++ [.string s k]⟩ := by
  have hd : dropWs (w ++ 34 :: (b ++ 34 :: r)) = 34 :: (b ++ 34 :: r) := dropWs_append hw (by simp [isWs])
  have := strLoop_complete h ((b ++ 34 :: r).length + 1) [] r ev (by simp; omega)
  unfold parseString
  simp only [List.nil_append, List.length_append, List.length_cons] at this
  simp [bind_apply, skipWs_apply, hd, haveC_hit, this, emit_apply, pure_apply]

theorem haveLitLoop_complete (bufEnd addr : Nat) : ∀ (pat pre r : Bytes), addr + pre.length + pat.length ≤ bufEnd →
    haveLitLoop bufEnd addr (pre ++ (pat ++ r)) pre.length pat = .ok true := by
  intro pat
  induction pat with
  | nil => intro pre r _; rfl
  | cons c pat ih =>
    intro pre r h
    simp only [List.length_cons] at h
    unfold haveLitLoop
    rw [if_neg (by omega), peek_append]
    simp only [List.cons_append, List.head?_cons, Option.getD_some, ne_eq, not_true_eq_false, if_false]
    have := ih (pre ++ [c]) r (by simp; omega)
    simpa using this

theorem haveLit_complete (bufEnd addr : Nat) (pat r : Bytes) (ev : List Ev) (h : addr + pat.length ≤ bufEnd) :
    haveLit bufEnd addr pat ⟨pat ++ r, ev⟩ = .ok true ⟨r, ev⟩ := by
  have := haveLitLoop_complete bufEnd addr pat [] r (by simpa using h)
  simp only [List.nil_append, List.length_nil] at this
  simp [haveLit, this]

theorem parseBoolean_true {L : Layout} (hL : L.Good) {w : Bytes} (hw : WS w) (r : Bytes) (ev : List Ev) :
    parseBoolean L ⟨w ++ ([116, 114, 117, 101] ++ r), ev⟩ = .ok true ⟨r, ev ++ [.boolean true]⟩ := by
  have hd : dropWs (w ++ ([116, 114, 117, 101] ++ r)) = 116 :: ([114, 117, 101] ++ r) := dropWs_append hw (by simp [isWs])
  have := haveLit_complete L.bufEnd L.rue [114, 117, 101] r ev hL.1
  unfold parseBoolean expectLit
  rw [bind_apply, skipWs_apply]
  simp only
  rw [hd]
  simp only [bind_apply, haveC_hit, if_true, this, pure_apply, emit_apply]

theorem parseBoolean_false {L : Layout} (hL : L.Good) {w : Bytes} (hw : WS w) (r : Bytes) (ev : List Ev) :
    parseBoolean L ⟨w ++ ([102, 97, 108, 115, 101] ++ r), ev⟩ = .ok true ⟨r, ev ++ [.boolean false]⟩ := by
  have hd : dropWs (w ++ ([102, 97, 108, 115, 101] ++ r)) = 102 :: ([97, 108, 115, 101] ++ r) := dropWs_append hw (by simp [isWs])
  have := haveLit_complete L.bufEnd L.alse [97, 108, 115, 101] r ev hL.2
  have hm : ∀ it, haveC 116 ⟨102 :: it, ev⟩ = .ok false ⟨102 :: it, ev⟩ := fun it => haveC_miss (by decide) (by simp)
  unfold parseBoolean expectLit
  rw [bind_apply, skipWs_apply]
  simp only
  rw [hd]
  simp only [bind_apply, hm, haveC_hit, if_true, this, pure_apply, emit_apply, Bool.false_eq_true, if_false]

theorem takeWhile_digits {ds r : Bytes} (hd : ∀ c ∈ ds, Digit c) (hr : NoDigit r) :
    (ds ++ r).takeWhile isDigit = ds ∧ (ds ++ r).dropWhile isDigit = r := by
  induction ds with
  | nil =>
    cases r with
    | nil => simp
    | cons c cs =>
      have : isDigit c = false := by
        have := hr c rfl
        rw [← isDigit_iff] at this
        simpa using this
      simp [this]
  | cons c ds ih =>
    have hc := (isDigit_iff c).mpr (hd c List.mem_cons_self)
    obtain ⟨h1, h2⟩ := ih (fun x hx => hd x (List.mem_cons_of_mem _ hx))
    simp [hc, h1, h2]

theorem natText_cases {t : Bytes} {n : Nat} (h : NatText t n) : t = [48] ∨ ∃ x ds, t = x :: ds ∧ isPosDigit x = true ∧ ∀ c ∈ ds, Digit c := by
  obtain ⟨h1, h2, h3, _⟩ := h
  cases t with
  | nil => exact absurd rfl h1
  | cons x ds =>
    by_cases hx : x = 48
    · left; exact h3 (by rw [hx]; rfl)
    · right
      exact ⟨x, ds, rfl, (isPosDigit_iff x).mpr ⟨h2 x List.mem_cons_self, hx⟩, fun c hc => h2 c (List.mem_cons_of_mem _ hc)⟩

theorem digit_not_ws {c : UInt8} (h : Digit c) : isWs c = false := by
  revert h
  rw [← isDigit_iff]
  exact forall_byte (p := fun c => isDigit c = true → isWs c = false) (by decide +kernel) c

theorem natText_head {t : Bytes} {n : Nat} (h : NatText t n) : ∃ c cs, t = c :: cs ∧ Digit c := by
  obtain ⟨h1, h2, _⟩ := h
  cases t with
  | nil => exact absurd rfl h1
  | cons x ds => exact ⟨x, ds, rfl, h2 x List.mem_cons_self⟩

theorem digit_ne_minus {c : UInt8} (h : Digit c) : c ≠ 45 := by
  rintro rfl
  exact absurd h.1 (by decide)

theorem parseNumber_complete {w t : Bytes} {z : Int} (hw : WS w) (h : IntText t z) (r : Bytes) (hr : NoDigit r) (ev : List Ev) :
    parseNumber ⟨w ++ (t ++ r), ev⟩ = .ok true ⟨r, ev ++ [.number t]⟩ := by
  have main : ∀ (neg : Bool) (u : Bytes) (n : Nat), NatText u n → t = (if neg then [45] else []) ++ u →
      parseNumber ⟨w ++ (t ++ r), ev⟩ = .ok true ⟨r, ev ++ [.number t]⟩ := by
    intro neg u n hu ht
    obtain ⟨c, cs, hc, hcd⟩ := natText_head hu
    have hd : dropWs (w ++ (t ++ r)) = t ++ r := by
      apply dropWs_append hw
      intro x hx
      cases neg
      · rw [ht, hc] at hx
        simp at hx; subst hx
        exact digit_not_ws hcd
      · rw [ht] at hx
        simp at hx; subst hx
        rfl
    have h45 : haveC 45 ⟨t ++ r, ev⟩ = .ok neg ⟨u ++ r, ev⟩ := by
      cases neg
      · rw [ht]
        simp only [Bool.false_eq_true, if_false, List.nil_append]
        exact haveC_miss (by decide) (by rw [hc]; simpa using digit_ne_minus hcd)
      · rw [ht]
        simp only [if_true, List.cons_append, List.nil_append]
        exact haveC_hit _ _ _
    unfold parseNumber
    rw [bind_apply, skipWs_apply]
    simp only
    rw [hd]
    rcases natText_cases hu with rfl | ⟨x, ds, rfl, hx, hds⟩
    · simp only [List.singleton_append] at h45
      simp [bind_apply, h45, haveC_hit, emit_apply, pure_apply]
      rw [ht]
    · have hx48 : haveC 48 ⟨x :: (ds ++ r), ev⟩ = .ok false ⟨x :: (ds ++ r), ev⟩ :=
        haveC_miss (by decide) (by simpa using ((isPosDigit_iff x).mp hx).2)
      obtain ⟨e1, e2⟩ := takeWhile_digits hds hr
      rw [List.cons_append] at h45
      simp [bind_apply, h45, hx48, parseIntPart, hx, parseDigits, e1, e2, emit_apply, pure_apply]
      rw [ht]
  cases h with
  | nonneg h => exact main false _ _ h rfl
  | neg h => exact main true _ _ h rfl

/-! ### the grammar -/

theorem jtext_head {t : Bytes} {j : JV} (h : JText t j) : ∃ c cs, t = c :: cs ∧ isWs c = false ∧ c ≠ 93 := by
  cases h with
  | true_ => exact ⟨_, _, rfl, rfl, by decide⟩
  | false_ => exact ⟨_, _, rfl, rfl, by decide⟩
  | int h =>
    cases h with
    | nonneg h =>
      obtain ⟨c, cs, hc, hd⟩ := natText_head h
      refine ⟨c, cs, hc, digit_not_ws hd, ?_⟩
      rintro rfl
      exact absurd hd.2 (by decide)
    | neg h => exact ⟨45, _, rfl, rfl, by decide⟩
  | str _ => exact ⟨_, _, rfl, rfl, by decide⟩
  | arrNil _ => exact ⟨_, _, rfl, rfl, by decide⟩
  | arr _ => exact ⟨_, _, rfl, rfl, by decide⟩
  | objNil _ => exact ⟨_, _, rfl, rfl, by decide⟩
  | obj _ => exact ⟨_, _, rfl, rfl, by decide⟩

theorem noDigit_ws {w r : Bytes} (hw : WS w) {c : UInt8} (hc : ¬ Digit c) : NoDigit (w ++ c :: r) := by
  intro x hx
  cases w with
  | nil => simp at hx; subst hx; exact hc
  | cons y w =>
    simp at hx; subst hx
    rcases hw y List.mem_cons_self with h | h | h | h <;> subst h <;> exact fun h => absurd h.1 (by decide)

/-- the layout is able to read the booleans of the value -/
def Reads (L : Layout) (j : JV) : Prop := L.Good ∨ BoolFree j

def Accepts (L : Layout) (t : Bytes) (j : JV) : Prop := ∀ (w r : Bytes) (ev : List Ev) (n : Nat), WS w → t.length < n →
  ((∃ z, j = .int z) → NoDigit r) → Reads L j →
  ∃ es, EvOf es j ∧ parseValue L n ⟨w ++ (t ++ r), ev⟩ = .ok () ⟨r, ev ++ es⟩

def AcceptsElems (L : Layout) (t : Bytes) (js : List JV) : Prop := ∀ (r : Bytes) (ev : List Ev) (n fuel : Nat), t.length < n →
  (dropWs (t ++ 93 :: r)).length < fuel → (∀ j ∈ js, Reads L j) →
  ∃ es, EvsOf es js ∧ elemsLoop (parseValue L n) fuel ⟨t ++ 93 :: r, ev⟩ = .ok () ⟨93 :: r, ev ++ es⟩

def AcceptsMembers (L : Layout) (t : Bytes) (ms : List (Bytes × JV)) : Prop := ∀ (r : Bytes) (ev : List Ev) (n fuel : Nat), t.length < n →
  (dropWs (t ++ 125 :: r)).length < fuel → (∀ k j, (k, j) ∈ ms → Reads L j) →
  ∃ es, MsOf es ms ∧ membersLoop (parseValue L n) fuel ⟨t ++ 125 :: r, ev⟩ = .ok () ⟨125 :: r, ev ++ es⟩

/-- the alternatives of `parse_value` in order -/
theorem parseValue_obj {L : Layout} {n : Nat} {it : Bytes} {ev : List Ev} {st' : PState}
    (h : parseObject (parseValue L n) ⟨it, ev⟩ = .ok true st') : parseValue L (n + 1) ⟨it, ev⟩ = .ok () st' := by
  unfold parseValue
  simp [bind_apply, h, pure_apply]

theorem parseValue_arr {L : Layout} {n : Nat} {it : Bytes} {ev : List Ev} {st' : PState} (hd : (dropWs it).head? = some 91)
    (h : parseArray (parseValue L n) ⟨it, ev⟩ = .ok true st') : parseValue L (n + 1) ⟨it, ev⟩ = .ok () st' := by
  unfold parseValue
  rw [← parseArray_dropWs] at h
  simp [bind_apply, parseObject_miss (parseValue L n) ev (it := it) (by simp [hd]), h, pure_apply]

theorem parseValue_str {L : Layout} {n : Nat} {it : Bytes} {ev : List Ev} {st' : PState} (hd : (dropWs it).head? = some 34)
    (h : parseString false ⟨it, ev⟩ = .ok true st') : parseValue L (n + 1) ⟨it, ev⟩ = .ok () st' := by
  unfold parseValue
  rw [← parseString_dropWs] at h
  simp [bind_apply, parseObject_miss (parseValue L n) ev (it := it) (by simp [hd]),
    parseArray_miss (parseValue L n) ev (it := dropWs it) (by simp [dropWs_dropWs, hd]), dropWs_dropWs, h, pure_apply]

theorem parseValue_bool {L : Layout} {n : Nat} {it : Bytes} {ev : List Ev} {st' : PState} {c : UInt8} (hd : (dropWs it).head? = some c)
    (hc : c = 116 ∨ c = 102) (h : parseBoolean L ⟨dropWs it, ev⟩ = .ok true st') : parseValue L (n + 1) ⟨it, ev⟩ = .ok () st' := by
  have h1 : c ≠ 123 ∧ c ≠ 91 ∧ c ≠ 34 := by rcases hc with rfl | rfl <;> decide
  unfold parseValue
  simp [bind_apply, parseObject_miss (parseValue L n) ev (it := it) (by simp [hd, h1]),
    parseArray_miss (parseValue L n) ev (it := dropWs it) (by simp [dropWs_dropWs, hd, h1]), dropWs_dropWs,
    parseString_miss false ev (it := dropWs it) (by simp [dropWs_dropWs, hd, h1]), h, pure_apply]

theorem parseValue_num {L : Layout} {n : Nat} {it : Bytes} {ev : List Ev} {st' : PState} {c : UInt8} (hd : (dropWs it).head? = some c)
    (hc : Digit c ∨ c = 45) (h : parseNumber ⟨dropWs it, ev⟩ = .ok true st') : parseValue L (n + 1) ⟨it, ev⟩ = .ok () st' := by
  have h1 : c ≠ 123 ∧ c ≠ 91 ∧ c ≠ 34 ∧ c ≠ 116 ∧ c ≠ 102 := by
    rcases hc with hc | rfl
    · refine ⟨?_, ?_, ?_, ?_, ?_⟩ <;> rintro rfl <;> revert hc <;> unfold Digit <;> decide
    · decide
  unfold parseValue
  simp [bind_apply, parseObject_miss (parseValue L n) ev (it := it) (by simp [hd, h1]),
    parseArray_miss (parseValue L n) ev (it := dropWs it) (by simp [dropWs_dropWs, hd, h1]), dropWs_dropWs,
    parseString_miss false ev (it := dropWs it) (by simp [dropWs_dropWs, hd, h1]),
    parseBoolean_miss L ev (it := dropWs it) (by simp [dropWs_dropWs, hd, h1]) (by simp [dropWs_dropWs, hd, h1]), h, pure_apply]

theorem reads_arr {L : Layout} {js : List JV} (h : Reads L (.arr js)) : ∀ j ∈ js, Reads L j := by
  intro j hj
  rcases h with h | h
  · exact .inl h
  · cases h with
    | arr h => exact .inr (h j hj)

theorem reads_obj {L : Layout} {ms : List (Bytes × JV)} (h : Reads L (.obj ms)) : ∀ k j, (k, j) ∈ ms → Reads L j := by
  intro k j hj
  rcases h with h | h
  · exact .inl h
  · cases h with
    | obj h => exact .inr (h k j hj)

theorem dropWs_cons {w r : Bytes} {c : UInt8} (hw : WS w) (hc : isWs c = false) : dropWs (w ++ c :: r) = c :: r :=
  dropWs_append hw (by intro x hx; simp at hx; subst hx; exact hc)

theorem accepts_elem_first {L : Layout} {t : Bytes} {js : List JV} (h : Elems t js) (r : Bytes) :
    (dropWs (t ++ r)).head? ≠ some 93 := by
  cases h with
  | one hw ht _ =>
    obtain ⟨c, cs, rfl, h1, h2⟩ := jtext_head ht
    simp only [List.append_assoc, List.cons_append]
    rw [dropWs_cons hw h1]
    simpa using h2
  | cons hw ht _ _ =>
    obtain ⟨c, cs, rfl, h1, h2⟩ := jtext_head ht
    simp only [List.append_assoc, List.cons_append]
    rw [dropWs_cons hw h1]
    simpa using h2

theorem accepts_member_first {t : Bytes} {ms : List (Bytes × JV)} (h : Members t ms) (r : Bytes) :
    (dropWs (t ++ r)).head? ≠ some 125 := by
  cases h with
  | one hw _ _ _ _ _ =>
    simp only [List.append_assoc, List.cons_append]
    rw [dropWs_cons hw rfl]
    simp
  | cons hw _ _ _ _ _ _ =>
    simp only [List.append_assoc, List.cons_append]
    rw [dropWs_cons hw rfl]
    simp

theorem parseArray_elems {L : Layout} {n : Nat} {w t r : Bytes} {js : List JV} {ev es : List Ev} (hw : WS w) (h : Elems t js)
    (hl : elemsLoop (parseValue L n) ((dropWs (t ++ 93 :: r)).length + 1) ⟨t ++ 93 :: r, ev ++ [.beginArray]⟩ =
      .ok () ⟨93 :: r, ev ++ [.beginArray] ++ es⟩) :
    parseArray (parseValue L n) ⟨w ++ 91 :: (t ++ 93 :: r), ev⟩ = .ok true ⟨r, ev ++ .beginArray :: (es ++ [.endArray])⟩ := by
  have hd : dropWs (w ++ 91 :: (t ++ 93 :: r)) = 91 :: (t ++ 93 :: r) := dropWs_cons hw rfl
  have h2 := haveC_miss (c := 93) (st := ⟨dropWs (t ++ 93 :: r), ev ++ [.beginArray]⟩) (by decide)
    (accepts_elem_first (L := L) h (93 :: r))
  rw [← elemsLoop_dropWs] at hl
  unfold parseArray
  simp [bind_apply, skipWs_apply, hd, haveC_hit, emit_apply, h2, hl, expectC, pure_apply]

theorem parseObject_members {L : Layout} {n : Nat} {w t r : Bytes} {ms : List (Bytes × JV)} {ev es : List Ev} (hw : WS w)
    (h : Members t ms)
    (hl : membersLoop (parseValue L n) ((dropWs (t ++ 125 :: r)).length + 1) ⟨t ++ 125 :: r, ev ++ [.beginObject]⟩ =
      .ok () ⟨125 :: r, ev ++ [.beginObject] ++ es⟩) :
    parseObject (parseValue L n) ⟨w ++ 123 :: (t ++ 125 :: r), ev⟩ = .ok true ⟨r, ev ++ .beginObject :: (es ++ [.endObject])⟩ := by
  have hd : dropWs (w ++ 123 :: (t ++ 125 :: r)) = 123 :: (t ++ 125 :: r) := dropWs_cons hw rfl
  have h2 := haveC_miss (c := 125) (st := ⟨dropWs (t ++ 125 :: r), ev ++ [.beginObject]⟩) (by decide)
    (accepts_member_first h (125 :: r))
  rw [← membersLoop_dropWs] at hl
  unfold parseObject
  simp [bind_apply, skipWs_apply, hd, haveC_hit, emit_apply, h2, hl, expectC, pure_apply]

theorem parseArray_empty {pv : P Unit} {w w0 r : Bytes} (hw : WS w) (hw0 : WS w0) (ev : List Ev) :
    parseArray pv ⟨w ++ 91 :: (w0 ++ 93 :: r), ev⟩ = .ok true ⟨r, ev ++ [.beginArray, .endArray]⟩ := by
  have hd : dropWs (w ++ 91 :: (w0 ++ 93 :: r)) = 91 :: (w0 ++ 93 :: r) := dropWs_cons hw rfl
  have hd0 : dropWs (w0 ++ 93 :: r) = 93 :: r := dropWs_cons hw0 rfl
  unfold parseArray
  simp [bind_apply, skipWs_apply, hd, hd0, haveC_hit, emit_apply, pure_apply]

theorem parseObject_empty {pv : P Unit} {w w0 r : Bytes} (hw : WS w) (hw0 : WS w0) (ev : List Ev) :
    parseObject pv ⟨w ++ 123 :: (w0 ++ 125 :: r), ev⟩ = .ok true ⟨r, ev ++ [.beginObject, .endObject]⟩ := by
  have hd : dropWs (w ++ 123 :: (w0 ++ 125 :: r)) = 123 :: (w0 ++ 125 :: r) := dropWs_cons hw rfl
  have hd0 : dropWs (w0 ++ 125 :: r) = 125 :: r := dropWs_cons hw0 rfl
  unfold parseObject
  simp [bind_apply, skipWs_apply, hd, hd0, haveC_hit, emit_apply, pure_apply]

theorem not_digit_44 : ¬ Digit 44 := by unfold Digit; decide
theorem not_digit_93 : ¬ Digit 93 := by unfold Digit; decide
theorem not_digit_125 : ¬ Digit 125 := by unfold Digit; decide

/-- the parser accepts every text of the grammar -/
theorem accepts (L : Layout) {t : Bytes} {j : JV} (h : JText t j) : Accepts L t j := by
  refine JText.rec (motive_1 := fun t j _ => Accepts L t j) (motive_2 := fun t js _ => AcceptsElems L t js)
    (motive_3 := fun t ms _ => AcceptsMembers L t ms) ?_ ?_ ?_ ?_ ?_ ?_ ?_ ?_ ?_ ?_ ?_ ?_ h
  · intro w r ev n hw hn _ hL
    obtain ⟨n, rfl⟩ : ∃ k, n = k + 1 := ⟨n - 1, by omega⟩
    rcases hL with hL | hL
    · have hd : dropWs (w ++ ([116, 114, 117, 101] ++ r)) = [116, 114, 117, 101] ++ r := dropWs_cons hw rfl
      refine ⟨[.boolean true], .boolean, parseValue_bool (c := 116) (by rw [hd]; rfl) (.inl rfl) ?_⟩
      rw [hd]
      exact parseBoolean_true hL (w := []) (by simp [WS]) r ev
    · cases hL
  · intro w r ev n hw hn _ hL
    obtain ⟨n, rfl⟩ : ∃ k, n = k + 1 := ⟨n - 1, by omega⟩
    rcases hL with hL | hL
    · have hd : dropWs (w ++ ([102, 97, 108, 115, 101] ++ r)) = [102, 97, 108, 115, 101] ++ r := dropWs_cons hw rfl
      refine ⟨[.boolean false], .boolean, parseValue_bool (c := 102) (by rw [hd]; rfl) (.inr rfl) ?_⟩
      rw [hd]
      exact parseBoolean_false hL (w := []) (by simp [WS]) r ev
    · cases hL
  · intro t z hz w r ev n hw hn hr hL
    obtain ⟨n, rfl⟩ : ∃ k, n = k + 1 := ⟨n - 1, by omega⟩
    obtain ⟨c, cs, ht, hc, _⟩ := jtext_head (JText.int hz)
    have hd : dropWs (w ++ (t ++ r)) = t ++ r := by rw [ht]; exact dropWs_cons hw hc
    refine ⟨[.number t], .number hz, parseValue_num (c := c) (by rw [hd, ht]; rfl) ?_ ?_⟩
    · cases hz with
      | nonneg h =>
        obtain ⟨c', cs', h1, h2⟩ := natText_head h
        rw [h1] at ht
        cases ht
        exact .inl h2
      | neg h =>
        cases ht
        exact .inr rfl
    · rw [hd]
      exact parseNumber_complete (w := []) (by simp [WS]) hz r (hr ⟨_, rfl⟩) ev
  · intro b s hb w r ev n hw hn _ _
    obtain ⟨n, rfl⟩ : ∃ k, n = k + 1 := ⟨n - 1, by omega⟩
    have he : w ++ (34 :: (b ++ [34]) ++ r) = w ++ 34 :: (b ++ 34 :: r) := by simp
    rw [he]
    exact ⟨[.string s false], .str, parseValue_str (by rw [dropWs_cons hw rfl]; rfl) (parseString_complete hw hb false r ev)⟩
  · intro w0 hw0 w r ev n hw hn _ _
    obtain ⟨n, rfl⟩ : ∃ k, n = k + 1 := ⟨n - 1, by omega⟩
    have he : w ++ (91 :: (w0 ++ [93]) ++ r) = w ++ 91 :: (w0 ++ 93 :: r) := by simp
    rw [he]
    exact ⟨[.beginArray, .endArray], .arr .nil, parseValue_arr (by rw [dropWs_cons hw rfl]; rfl) (parseArray_empty hw hw0 ev)⟩
  · intro t js ht ih w r ev n hw hn _ hL
    obtain ⟨n, rfl⟩ : ∃ k, n = k + 1 := ⟨n - 1, by omega⟩
    have he : w ++ (91 :: (t ++ [93]) ++ r) = w ++ 91 :: (t ++ 93 :: r) := by simp
    rw [he]
    obtain ⟨es, h1, h2⟩ := ih r (ev ++ [.beginArray]) n ((dropWs (t ++ 93 :: r)).length + 1) (by simp at hn; omega) (by omega) (reads_arr hL)
    exact ⟨_, .arr h1, parseValue_arr (by rw [dropWs_cons hw rfl]; rfl) (parseArray_elems hw ht h2)⟩
  · intro w0 hw0 w r ev n hw hn _ _
    obtain ⟨n, rfl⟩ : ∃ k, n = k + 1 := ⟨n - 1, by omega⟩
    have he : w ++ (123 :: (w0 ++ [125]) ++ r) = w ++ 123 :: (w0 ++ 125 :: r) := by simp
    rw [he]
    exact ⟨[.beginObject, .endObject], .obj .nil, parseValue_obj (parseObject_empty hw hw0 ev)⟩
  · intro t ms ht ih w r ev n hw hn _ hL
    obtain ⟨n, rfl⟩ : ∃ k, n = k + 1 := ⟨n - 1, by omega⟩
    have he : w ++ (123 :: (t ++ [125]) ++ r) = w ++ 123 :: (t ++ 125 :: r) := by simp
    rw [he]
    obtain ⟨es, h1, h2⟩ := ih r (ev ++ [.beginObject]) n ((dropWs (t ++ 125 :: r)).length + 1) (by simp at hn; omega) (by omega)
      (reads_obj hL)
    exact ⟨_, .obj h1, parseValue_obj (parseObject_members hw ht h2)⟩
  · intro w t w' j hw ht hw' ih r ev n fuel hn hf hL
    obtain ⟨fuel, rfl⟩ : ∃ k, fuel = k + 1 := ⟨fuel - 1, by omega⟩
    obtain ⟨es, h1, h2⟩ := ih w (w' ++ 93 :: r) ev n hw (by simp at hn; omega) (fun _ => noDigit_ws hw' not_digit_93)
      (hL j (by simp))
    have he : w ++ (t ++ w') ++ 93 :: r = w ++ (t ++ (w' ++ 93 :: r)) := by simp
    rw [he]
    have hm := haveC_miss (c := 44) (st := ⟨93 :: r, ev ++ es⟩) (by decide) (by simp)
    refine ⟨es ++ [], .cons h1 .nil, ?_⟩
    unfold elemsLoop
    simp [bind_apply, h2, skipWs_apply, dropWs_cons (r := r) hw' (c := 93) rfl, hm, pure_apply]
  · intro w t w' j rs js hw ht hw' _ ih ihr r ev n fuel hn hf hL
    obtain ⟨fuel, rfl⟩ : ∃ k, fuel = k + 1 := ⟨fuel - 1, by omega⟩
    obtain ⟨es, h1, h2⟩ := ih w (w' ++ 44 :: (rs ++ 93 :: r)) ev n hw (by simp at hn; omega) (fun _ => noDigit_ws hw' not_digit_44)
      (hL j (by simp))
    have he : w ++ (t ++ (w' ++ 44 :: rs)) ++ 93 :: r = w ++ (t ++ (w' ++ 44 :: (rs ++ 93 :: r))) := by simp
    rw [he] at hf ⊢
    have hf' : (dropWs (rs ++ 93 :: r)).length < fuel := by
      obtain ⟨c, cs, rfl, hc, _⟩ := jtext_head ht
      rw [List.cons_append, dropWs_cons hw hc] at hf
      have := dropWs_length (rs ++ 93 :: r)
      simp only [List.length_cons, List.length_append] at hf this
      omega
    obtain ⟨es', h3, h4⟩ := ihr r (ev ++ es) n fuel (by simp at hn; omega) hf' (fun j hj => hL j (by simp [hj]))
    refine ⟨es ++ es', .cons h1 h3, ?_⟩
    unfold elemsLoop
    simp [bind_apply, h2, skipWs_apply, dropWs_cons (r := rs ++ 93 :: r) hw' (c := 44) rfl, haveC_hit, h4]
  · intro w b k w1 w2 t w3 j hw hb hw1 hw2 ht hw3 ih r ev n fuel hn hf hL
    obtain ⟨fuel, rfl⟩ : ∃ k, fuel = k + 1 := ⟨fuel - 1, by omega⟩
    obtain ⟨es, h1, h2⟩ := ih w2 (w3 ++ 125 :: r) (ev ++ [.string k true]) n hw2 (by simp at hn; omega)
      (fun _ => noDigit_ws hw3 not_digit_125) (hL k j (by simp))
    have he : w ++ 34 :: (b ++ 34 :: (w1 ++ 58 :: (w2 ++ (t ++ w3)))) ++ 125 :: r =
        w ++ 34 :: (b ++ 34 :: (w1 ++ 58 :: (w2 ++ (t ++ (w3 ++ 125 :: r))))) := by simp
    rw [he]
    have hs := parseString_complete hw hb true (w1 ++ 58 :: (w2 ++ (t ++ (w3 ++ 125 :: r)))) ev
    have hm := haveC_miss (c := 44) (st := ⟨125 :: r, ev ++ [.string k true] ++ es⟩) (by decide) (by simp)
    refine ⟨.string k true :: (es ++ []), .cons h1 .nil, ?_⟩
    unfold membersLoop
    simp only [List.append_assoc, List.singleton_append] at hm h2
    simp [bind_apply, hs, pure_apply, skipWs_apply, dropWs_cons hw1 (c := 58) rfl, expectC, haveC_hit, h2,
      dropWs_cons (r := r) hw3 (c := 125) rfl, hm]
  · intro w b k w1 w2 t w3 j rs ms hw hb hw1 hw2 ht hw3 _ ih ihr r ev n fuel hn hf hL
    obtain ⟨fuel, rfl⟩ : ∃ k, fuel = k + 1 := ⟨fuel - 1, by omega⟩
    obtain ⟨es, h1, h2⟩ := ih w2 (w3 ++ 44 :: (rs ++ 125 :: r)) (ev ++ [.string k true]) n hw2 (by simp at hn; omega)
      (fun _ => noDigit_ws hw3 not_digit_44) (hL k j (by simp))
    have he : w ++ 34 :: (b ++ 34 :: (w1 ++ 58 :: (w2 ++ (t ++ (w3 ++ 44 :: rs))))) ++ 125 :: r =
        w ++ 34 :: (b ++ 34 :: (w1 ++ 58 :: (w2 ++ (t ++ (w3 ++ 44 :: (rs ++ 125 :: r)))))) := by simp
    rw [he] at hf ⊢
    have hf' : (dropWs (rs ++ 125 :: r)).length < fuel := by
      rw [dropWs_cons hw rfl] at hf
      have := dropWs_length (rs ++ 125 :: r)
      simp only [List.length_cons, List.length_append] at hf this
      omega
    have hs := parseString_complete hw hb true (w1 ++ 58 :: (w2 ++ (t ++ (w3 ++ 44 :: (rs ++ 125 :: r))))) ev
    obtain ⟨es', h3, h4⟩ := ihr r (ev ++ .string k true :: es) n fuel (by simp at hn; omega) hf' (fun k j hj => hL k j (by simp [hj]))
    refine ⟨.string k true :: (es ++ es'), .cons h1 h3, ?_⟩
    unfold membersLoop
    simp only [List.append_assoc, List.singleton_append] at h2
    simp [bind_apply, hs, pure_apply, skipWs_apply, dropWs_cons hw1 (c := 58) rfl, expectC, haveC_hit, h2,
      dropWs_cons (r := rs ++ 125 :: r) hw3 (c := 44) rfl, h4]

end Json
end Eni
