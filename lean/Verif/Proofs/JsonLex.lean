import Verif.Model.JsonParser
import Verif.Spec.Json
/-!
# The lexical functions of the parser: complete description of every outcome
-/
namespace Eni
namespace Json
open Spec

set_option linter.unusedSimpArgs false

theorem bind_apply {α β : Type} (x : P α) (f : α → P β) (st : PState) : (x >>= f) st =
    match x st with
    | .ok a st' => f a st'
    | .err e st' => .err e st'
    | .ub u => .ub u
    | .diverge => .diverge := rfl

theorem pure_apply {α : Type} (a : α) (st : PState) : (pure a : P α) st = .ok a st := rfl

theorem haveC_hit (c : UInt8) (xs : Bytes) (ev : List Ev) : haveC c ⟨c :: xs, ev⟩ = .ok true ⟨xs, ev⟩ := by simp [haveC]

theorem haveC_miss {c : UInt8} {st : PState} (hc : c ≠ 0) (h : st.it.head? ≠ some c) : haveC c st = .ok false st := by
  obtain ⟨it, ev⟩ := st
  cases it with
  | nil => simp [haveC, hc]
  | cons x xs =>
    have : x ≠ c := by simpa using h
    simp [haveC, this]

theorem haveC_cases {c : UInt8} (hc : c ≠ 0) (st : PState) :
    (∃ xs, st.it = c :: xs ∧ haveC c st = .ok true ⟨xs, st.ev⟩) ∨ (st.it.head? ≠ some c ∧ haveC c st = .ok false st) := by
  by_cases h : st.it.head? = some c
  · left
    obtain ⟨it, ev⟩ := st
    cases it with
    | nil => simp at h
    | cons x xs =>
      simp at h; subst h
      exact ⟨xs, rfl, haveC_hit _ _ _⟩
  · right; exact ⟨h, haveC_miss hc h⟩

/-! ### white space -/

theorem isWs_iff (c : UInt8) : isWs c = true ↔ (c = 32 ∨ c = 9 ∨ c = 10 ∨ c = 13) := by
  simp [isWs, or_assoc]

theorem dropWs_spec (it : Bytes) : ∃ w, WS w ∧ it = w ++ dropWs it ∧ ∀ c, (dropWs it).head? = some c → isWs c = false := by
  induction it with
  | nil => exact ⟨[], by simp [WS], rfl, by simp [dropWs]⟩
  | cons c cs ih =>
    unfold dropWs
    split
    · rename_i h
      obtain ⟨w, hw, he, hc⟩ := ih
      refine ⟨c :: w, ?_, by rw [List.cons_append, ← he], hc⟩
      intro x hx
      rcases List.mem_cons.mp hx with rfl | hx
      · exact (isWs_iff _).mp h
      · exact hw x hx
    · rename_i h
      refine ⟨[], by simp [WS], rfl, ?_⟩
      intro x hx
      simp at hx; subst hx
      simpa using h

theorem dropWs_append {w r : Bytes} (hw : WS w) (hr : ∀ c, r.head? = some c → isWs c = false) : dropWs (w ++ r) = r := by
  induction w with
  | nil =>
    cases r with
    | nil => rfl
    | cons c cs => simp [dropWs, hr c rfl]
  | cons c w ih =>
    have h : isWs c = true := (isWs_iff c).mpr (hw c List.mem_cons_self)
    simp only [List.cons_append, dropWs, h, if_true]
    exact ih (fun x hx => hw x (List.mem_cons_of_mem _ hx))

theorem WS.append {a b : Bytes} (ha : WS a) (hb : WS b) : WS (a ++ b) := by
  intro c hc
  rcases List.mem_append.mp hc with h | h
  · exact ha c h
  · exact hb c h

/-! ### escapes and strings -/

theorem forall_byte {p : UInt8 → Prop} (h : ∀ n : Fin 256, p (UInt8.ofNat n)) (c : UInt8) : p c := by
  have := h ⟨c.toNat, c.toNat_lt⟩
  simpa using this

theorem hexOf_isHex (c : UInt8) : isHex c = (hexOf c).isSome :=
  forall_byte (p := fun c => isHex c = (hexOf c).isSome) (by decide +kernel) c

theorem hexOf_hexDigit (c : UInt8) : isHex c = true → hexOf c = some (hexDigit c) :=
  forall_byte (p := fun c => isHex c = true → hexOf c = some (hexDigit c)) (by decide +kernel) c

theorem hexDigit_lt (c : UInt8) : isHex c = true → hexDigit c < 16 :=
  forall_byte (p := fun c => isHex c = true → hexDigit c < 16) (by decide +kernel) c

/-- an escape sequence after the backslash and the byte it denotes -/
inductive Esc : Bytes → UInt8 → Prop
  | one {c x} : escOf c = some x → Esc [c] x
  | uni {h1 h2 h3 h4 : UInt8} {n1 n2 n3 n4 : Nat} : hexOf h1 = some n1 → hexOf h2 = some n2 → hexOf h3 = some n3 →
      hexOf h4 = some n4 → Esc [117, h1, h2, h3, h4] (n1 * 4096 + n2 * 256 + n3 * 16 + n4).toUInt8

theorem StrBody.ofEsc {e b s : Bytes} {x : UInt8} (h : Esc e x) (hb : StrBody b s) : StrBody (92 :: (e ++ b)) (x :: s) := by
  cases h with
  | one h => exact .esc h hb
  | uni h1 h2 h3 h4 => exact .uni h1 h2 h3 h4 hb

theorem validCode_cases (it : Bytes) : (validCode it 0 4 = .ok false) ∨
    (validCode it 0 4 = .ok true ∧ ∃ a b c d r, it = a :: b :: c :: d :: r ∧ isHex a = true ∧ isHex b = true ∧ isHex c = true ∧
      isHex d = true) := by
  have h0 : isHex 0 = false := rfl
  rcases it with _ | ⟨a, _ | ⟨b, _ | ⟨c, _ | ⟨d, r⟩⟩⟩⟩
  · left; simp [validCode, peek, h0]
  · left
    by_cases ha : isHex a = true <;> simp [validCode, peek, ha, h0]
  · left
    by_cases ha : isHex a = true <;> by_cases hb : isHex b = true <;> simp [validCode, peek, ha, hb, h0]
  · left
    by_cases ha : isHex a = true <;> by_cases hb : isHex b = true <;> by_cases hc : isHex c = true <;>
      simp [validCode, peek, ha, hb, hc, h0]
  · by_cases ha : isHex a = true <;> by_cases hb : isHex b = true <;> by_cases hc : isHex c = true <;> by_cases hd : isHex d = true <;>
      simp [validCode, peek, ha, hb, hc, hd]

theorem codeVal (a b c d : Nat) : ((a * 16 + b) * 16 + c) * 16 + d = a * 4096 + b * 256 + c * 16 + d := by omega

/-- every outcome of `parse_codepoint` -/
theorem parseCodepoint_post (st : PState) :
    (∃ h x r, parseCodepoint st = .ok x ⟨r, st.ev⟩ ∧ st.it = h ++ r ∧ Esc (117 :: h) x) ∨ parseCodepoint st = .err .code st := by
  rcases validCode_cases st.it with h | ⟨h, a, b, c, d, r, hit, ha, hb, hc, hd⟩
  · right; simp [parseCodepoint, h]
  · left
    refine ⟨[a, b, c, d], (hexDigit a * 4096 + hexDigit b * 256 + hexDigit c * 16 + hexDigit d).toUInt8, r, ?_, by rw [hit]; rfl, ?_⟩
    · rw [← codeVal]
      unfold parseCodepoint
      rw [h]
      simp only [hit]
    · exact .uni (hexOf_hexDigit a ha) (hexOf_hexDigit b hb) (hexOf_hexDigit c hc) (hexOf_hexDigit d hd)

/-- every outcome of `parse_escape` -/
theorem parseEscape_post (st : PState) :
    (∃ e x r, parseEscape st = .ok x ⟨r, st.ev⟩ ∧ st.it = e ++ r ∧ Esc e x) ∨ (∃ er, parseEscape st = .err er st) ∨
    (∃ er r, parseEscape st = .err er ⟨r, st.ev⟩) := by
  unfold parseEscape
  rcases haveC_cases (c := 34) (by decide) st with ⟨xs, h1, h2⟩ | ⟨_, h2⟩
  · left; exact ⟨[34], 34, xs, by simp [bind_apply, h2, pure_apply], by simp [h1], .one rfl⟩
  rcases haveC_cases (c := 92) (by decide) st with ⟨xs, h1, h3⟩ | ⟨_, h3⟩
  · left; exact ⟨[92], 92, xs, by simp [bind_apply, h2, h3, pure_apply], by simp [h1], .one rfl⟩
  rcases haveC_cases (c := 47) (by decide) st with ⟨xs, h1, h4⟩ | ⟨_, h4⟩
  · left; exact ⟨[47], 47, xs, by simp [bind_apply, h2, h3, h4, pure_apply], by simp [h1], .one rfl⟩
  rcases haveC_cases (c := 98) (by decide) st with ⟨xs, h1, h5⟩ | ⟨_, h5⟩
  · left; exact ⟨[98], 8, xs, by simp [bind_apply, h2, h3, h4, h5, pure_apply], by simp [h1], .one rfl⟩
  rcases haveC_cases (c := 102) (by decide) st with ⟨xs, h1, h6⟩ | ⟨_, h6⟩
  · left; exact ⟨[102], 12, xs, by simp [bind_apply, h2, h3, h4, h5, h6, pure_apply], by simp [h1], .one rfl⟩
  rcases haveC_cases (c := 110) (by decide) st with ⟨xs, h1, h7⟩ | ⟨_, h7⟩
  · left; exact ⟨[110], 10, xs, by simp [bind_apply, h2, h3, h4, h5, h6, h7, pure_apply], by simp [h1], .one rfl⟩
  rcases haveC_cases (c := 114) (by decide) st with ⟨xs, h1, h8⟩ | ⟨_, h8⟩
  · left; exact ⟨[114], 13, xs, by simp [bind_apply, h2, h3, h4, h5, h6, h7, h8, pure_apply], by simp [h1], .one rfl⟩
  rcases haveC_cases (c := 116) (by decide) st with ⟨xs, h1, h9⟩ | ⟨_, h9⟩
  · left; exact ⟨[116], 9, xs, by simp [bind_apply, h2, h3, h4, h5, h6, h7, h8, h9, pure_apply], by simp [h1], .one rfl⟩
  rcases haveC_cases (c := 117) (by decide) st with ⟨xs, h1, h10⟩ | ⟨_, h10⟩
  · rcases parseCodepoint_post ⟨xs, st.ev⟩ with ⟨h, x, r, hp, hr, he⟩ | hp
    · left
      refine ⟨117 :: h, x, r, by simp [bind_apply, h2, h3, h4, h5, h6, h7, h8, h9, h10, pure_apply, hp], ?_, he⟩
      simp only at hr
      rw [h1, hr]; rfl
    · right; right
      exact ⟨.code, xs, by simp [bind_apply, h2, h3, h4, h5, h6, h7, h8, h9, h10, pure_apply, hp]⟩
  · right; left
    exact ⟨.escape, by simp [bind_apply, h2, h3, h4, h5, h6, h7, h8, h9, h10, error]⟩

/-- every outcome of the loop of `parse_string` -/
theorem strLoop_post : ∀ (fuel : Nat) (str : Bytes) (st : PState), st.it.length < fuel →
    (∃ b s r, strLoop fuel str st = .ok (str ++ s) ⟨r, st.ev⟩ ∧ st.it = b ++ 34 :: r ∧ StrBody b s) ∨
    (∃ er r, strLoop fuel str st = .err er ⟨r, st.ev⟩) := by
  intro fuel
  induction fuel with
  | zero => intro str st h; omega
  | succ fuel ih =>
    intro str st hlen
    unfold strLoop
    rcases haveC_cases (c := 34) (by decide) st with ⟨xs, h1, h2⟩ | ⟨hn34, h2⟩
    · left; exact ⟨[], [], xs, by simp [bind_apply, h2, pure_apply], by simp [h1], .nil⟩
    cases hit : st.it with
    | nil => right; exact ⟨.unterminated, st.it, by simp [bind_apply, h2, atEnd, hit, error]; rw [← hit]⟩
    | cons x xs =>
      have hend : atEnd st = .ok false st := by simp [atEnd, hit]
      rcases haveC_cases (c := 92) (by decide) st with ⟨ys, h1, h3⟩ | ⟨hn92, h3⟩
      · rcases parseEscape_post ⟨ys, st.ev⟩ with ⟨e, c, r, hp, hr, he⟩ | ⟨er, hp⟩ | ⟨er, r, hp⟩
        · simp only at hr
          have hl : r.length < fuel := by rw [h1, hr] at hlen; simp at hlen; omega
          rcases ih (str ++ [c]) ⟨r, st.ev⟩ hl with ⟨b, s, r', hs, hr', hb⟩ | ⟨er, r', hs⟩
          · left
            refine ⟨92 :: (e ++ b), c :: s, r', ?_, ?_, StrBody.ofEsc he hb⟩
            · simp [bind_apply, h2, hend, h3, hp, hs, pure_apply]
            · simp only at hr'
              rw [← hit, h1, hr, hr']; simp
          · right; exact ⟨er, r', by simp [bind_apply, h2, hend, h3, hp, hs, pure_apply]⟩
        · right; exact ⟨er, ys, by simp [bind_apply, h2, hend, h3, hp, pure_apply]⟩
        · right; exact ⟨er, r, by simp [bind_apply, h2, hend, h3, hp, pure_apply]⟩
      · have ht : takeByte st = .ok x ⟨xs, st.ev⟩ := by simp [takeByte, hit]
        have hl : xs.length < fuel := by rw [hit] at hlen; simp at hlen; omega
        rw [hit] at hn34 hn92
        rcases ih (str ++ [x]) ⟨xs, st.ev⟩ hl with ⟨b, s, r', hs, hr', hb⟩ | ⟨er, r', hs⟩
        · left
          refine ⟨x :: b, x :: s, r', ?_, ?_, .raw (by simpa using hn34) (by simpa using hn92) hb⟩
          · simp [bind_apply, h2, hend, h3, ht, hs, pure_apply]
          · simp only at hr'
            rw [hr']; simp
        · right; exact ⟨er, r', by simp [bind_apply, h2, hend, h3, ht, hs, pure_apply]⟩

theorem skipWs_apply (st : PState) : skipWs st = .ok () ⟨dropWs st.it, st.ev⟩ := rfl
theorem emit_apply (e : Ev) (st : PState) : emit e st = .ok () ⟨st.it, st.ev ++ [e]⟩ := rfl
theorem error_apply {α : Type} (e : PErr) (st : PState) : (error e : P α) st = .err e st := rfl

/-- every outcome of `parse_string` -/
theorem parseString_post (isKey : Bool) (st : PState) :
    (∃ w b s r, parseString isKey st = .ok true ⟨r, st.ev ++ [.string s isKey]⟩ ∧ WS w ∧ st.it = w ++ 34 :: (b ++ 34 :: r) ∧
      StrBody b s) ∨
    (parseString isKey st = .ok false ⟨dropWs st.it, st.ev⟩ ∧ (dropWs st.it).head? ≠ some 34) ∨
    (∃ er r, parseString isKey st = .err er ⟨r, st.ev⟩) := by
  unfold parseString
  obtain ⟨w, hw, hit, _⟩ := dropWs_spec st.it
  rcases haveC_cases (c := 34) (by decide) ⟨dropWs st.it, st.ev⟩ with ⟨xs, h1, h2⟩ | ⟨hn, h2⟩
  · simp only at h1 h2
    rcases strLoop_post (xs.length + 1) [] ⟨xs, st.ev⟩ (by simp) with ⟨b, s, r, h3, h4, hb⟩ | ⟨er, r, h3⟩
    · left
      simp only at h3 h4
      refine ⟨w, b, s, r, ?_, hw, by rw [hit, h1, h4], hb⟩
      simp [bind_apply, skipWs_apply, h2, h3, emit_apply, pure_apply]
    · right; right
      exact ⟨er, r, by simp [bind_apply, skipWs_apply, h2, h3]⟩
  · right; left
    exact ⟨by simp [bind_apply, skipWs_apply, h2, pure_apply], hn⟩

theorem peek_append (pre suf : Bytes) : peek (pre ++ suf) pre.length = some (suf.head?.getD 0) := by
  unfold peek
  cases suf with
  | nil => simp
  | cons c cs => simp

theorem haveLitLoop_post (bufEnd addr : Nat) (pat : Bytes) (hp : ∀ c ∈ pat, c ≠ 0) : ∀ (pre suf : Bytes),
    (haveLitLoop bufEnd addr (pre ++ suf) pre.length pat = .ok true ∧ ∃ r, suf = pat ++ r) ∨
    haveLitLoop bufEnd addr (pre ++ suf) pre.length pat = .ok false := by
  induction pat with
  | nil => intro pre suf; left; exact ⟨rfl, suf, rfl⟩
  | cons c pat ih =>
    intro pre suf
    unfold haveLitLoop
    split
    · right; rfl
    · rw [peek_append]
      simp only
      split
      · right; rfl
      · rename_i h
        have h : c = suf.head?.getD 0 := by simpa using h
        cases suf with
        | nil => exact absurd h (by simpa using hp c List.mem_cons_self)
        | cons x xs =>
          simp at h
          subst h
          have := ih (fun x hx => hp x (List.mem_cons_of_mem _ hx)) (pre ++ [c]) xs
          simpa using this

/-- every outcome of `have(const char*)` -/
theorem haveLit_post (bufEnd addr : Nat) (pat : Bytes) (hp : ∀ c ∈ pat, c ≠ 0) (st : PState) :
    (∃ r, haveLit bufEnd addr pat st = .ok true ⟨r, st.ev⟩ ∧ st.it = pat ++ r) ∨ haveLit bufEnd addr pat st = .ok false st := by
  unfold haveLit
  rcases haveLitLoop_post bufEnd addr pat hp [] st.it with ⟨h, r, hr⟩ | h
  · left
    simp only [List.nil_append, List.length_nil] at h
    refine ⟨r, ?_, hr⟩
    rw [h]
    simp [hr]
  · right
    simp only [List.nil_append, List.length_nil] at h
    simp [h]

/-- every outcome of `parse_boolean` -/
theorem parseBoolean_post (L : Layout) (st : PState) :
    (∃ w r, parseBoolean L st = .ok true ⟨r, st.ev ++ [.boolean true]⟩ ∧ WS w ∧ st.it = w ++ ([116, 114, 117, 101] ++ r)) ∨
    (∃ w r, parseBoolean L st = .ok true ⟨r, st.ev ++ [.boolean false]⟩ ∧ WS w ∧ st.it = w ++ ([102, 97, 108, 115, 101] ++ r)) ∨
    (parseBoolean L st = .ok false ⟨dropWs st.it, st.ev⟩) ∨
    (∃ er r, parseBoolean L st = .err er ⟨r, st.ev⟩) := by
  unfold parseBoolean expectLit
  obtain ⟨w, hw, hit, _⟩ := dropWs_spec st.it
  rcases haveC_cases (c := 116) (by decide) ⟨dropWs st.it, st.ev⟩ with ⟨xs, h1, h2⟩ | ⟨_, h2⟩
  · simp only at h1 h2
    rcases haveLit_post L.bufEnd L.rue [114, 117, 101] (by decide) ⟨xs, st.ev⟩ with ⟨r, h3, h4⟩ | h3
    · left
      simp only at h3 h4
      exact ⟨w, r, by simp [bind_apply, skipWs_apply, h2, h3, emit_apply, pure_apply], hw, by rw [hit, h1, h4]; rfl⟩
    · right; right; right
      exact ⟨.true_, xs, by simp [bind_apply, skipWs_apply, h2, h3, error_apply]⟩
  · rcases haveC_cases (c := 102) (by decide) ⟨dropWs st.it, st.ev⟩ with ⟨xs, h1, h2'⟩ | ⟨_, h2'⟩
    · simp only at h1 h2'
      rcases haveLit_post L.bufEnd L.alse [97, 108, 115, 101] (by decide) ⟨xs, st.ev⟩ with ⟨r, h3, h4⟩ | h3
      · right; left
        simp only at h3 h4
        exact ⟨w, r, by simp [bind_apply, skipWs_apply, h2, h2', h3, emit_apply, pure_apply], hw, by rw [hit, h1, h4]; rfl⟩
      · right; right; right
        exact ⟨.false_, xs, by simp [bind_apply, skipWs_apply, h2, h2', h3, error_apply]⟩
    · right; right; left
      simp [bind_apply, skipWs_apply, h2, h2', pure_apply]

/-! ### numbers -/

theorem isDigit_iff (c : UInt8) : isDigit c = true ↔ Digit c := by
  simp only [isDigit, Bool.and_eq_true, decide_eq_true_eq, Digit, UInt8.le_iff_toNat_le]
  rfl

theorem isPosDigit_iff (c : UInt8) : isPosDigit c = true ↔ (Digit c ∧ c ≠ 48) := by
  simp only [isPosDigit, Bool.and_eq_true, decide_eq_true_eq, Digit, UInt8.le_iff_toNat_le, ne_eq, ← UInt8.toNat_inj]
  show (49 ≤ _ ∧ _ ≤ 57) ↔ _
  show _ ↔ (_ ∧ ¬ _ = 48)
  omega

theorem natText_zero : NatText [48] 0 := ⟨by simp, by simp [Digit], by simp, rfl⟩

theorem natText_pos {x : UInt8} {ds : Bytes} (hx : isPosDigit x = true) (hd : ∀ c ∈ ds, isDigit c = true) :
    NatText (x :: ds) (decVal (x :: ds)) := by
  obtain ⟨h1, h2⟩ := (isPosDigit_iff x).mp hx
  refine ⟨by simp, ?_, ?_, rfl⟩
  · intro c hc
    rcases List.mem_cons.mp hc with rfl | hc
    · exact h1
    · exact (isDigit_iff c).mp (hd c hc)
  · intro h
    simp at h
    exact absurd h h2

theorem takeWhile_all (p : UInt8 → Bool) (l : Bytes) : ∀ c ∈ l.takeWhile p, p c = true := by
  intro c hc
  exact (List.all_eq_true.mp (List.all_takeWhile (p := p) (l := l))) c hc

/-- every outcome of `parse_number` -/
theorem parseNumber_post (st : PState) :
    (∃ w t z r, parseNumber st = .ok true ⟨r, st.ev ++ [.number t]⟩ ∧ WS w ∧ st.it = w ++ (t ++ r) ∧ IntText t z) ∨
    (parseNumber st = .ok false ⟨dropWs st.it, st.ev⟩) ∨
    (∃ er r, parseNumber st = .err er ⟨r, st.ev⟩) := by
  unfold parseNumber
  obtain ⟨w, hw, hit, _⟩ := dropWs_spec st.it
  have main : ∀ (neg : Bool) (ys : Bytes), haveC 45 ⟨dropWs st.it, st.ev⟩ = .ok neg ⟨ys, st.ev⟩ →
      dropWs st.it = (if neg then [45] else []) ++ ys →
      (∃ w t z r, parseNumber st = .ok true ⟨r, st.ev ++ [.number t]⟩ ∧ WS w ∧ st.it = w ++ (t ++ r) ∧ IntText t z) ∨
      (parseNumber st = .ok false ⟨dropWs st.it, st.ev⟩) ∨ (∃ er r, parseNumber st = .err er ⟨r, st.ev⟩) := by
    intro neg ys h45 hd
    have hint : ∀ {t n}, NatText t n → ∃ z, IntText ((if neg then [45] else []) ++ t) z := by
      intro t n h
      cases neg
      · exact ⟨_, .nonneg h⟩
      · exact ⟨_, .neg h⟩
    rcases haveC_cases (c := 48) (by decide) ⟨ys, st.ev⟩ with ⟨xs, h1, h2⟩ | ⟨hn, h2⟩
    · left
      simp only at h1 h2
      obtain ⟨z, hz⟩ := hint natText_zero
      refine ⟨w, _, z, xs, ?_, hw, ?_, hz⟩
      · simp [parseNumber, bind_apply, skipWs_apply, h45, h2, emit_apply, pure_apply]
      · rw [List.append_assoc, List.singleton_append, ← h1, ← hd, ← hit]
    · cases ys with
      | nil =>
        cases neg
        · right; left
          simp only [Bool.false_eq_true, if_false, List.nil_append] at hd
          rw [hd]
          rw [hd] at h45
          simp [parseNumber, bind_apply, skipWs_apply, hd, h45, h2, parseIntPart, pure_apply]
        · right; right
          exact ⟨.digits, [], by simp [parseNumber, bind_apply, skipWs_apply, h45, h2, parseIntPart, error_apply]⟩
      | cons x xs =>
        by_cases hx : isPosDigit x = true
        · left
          obtain ⟨z, hz⟩ := hint (natText_pos hx (takeWhile_all isDigit xs))
          refine ⟨w, _, z, xs.dropWhile isDigit, ?_, hw, ?_, hz⟩
          · simp [parseNumber, bind_apply, skipWs_apply, h45, h2, parseIntPart, hx, parseDigits, emit_apply, pure_apply]
          · rw [List.append_assoc, List.cons_append, List.takeWhile_append_dropWhile, ← hd, ← hit]
        · cases neg
          · right; left
            simp only [Bool.false_eq_true, if_false, List.nil_append] at hd
            rw [hd] at h45 ⊢
            simp [parseNumber, bind_apply, skipWs_apply, hd, h45, h2, parseIntPart, hx, pure_apply]
          · right; right
            exact ⟨.digits, x :: xs, by simp [parseNumber, bind_apply, skipWs_apply, h45, h2, parseIntPart, hx, error_apply]⟩
  rcases haveC_cases (c := 45) (by decide) ⟨dropWs st.it, st.ev⟩ with ⟨xs, h1, h2⟩ | ⟨_, h2⟩
  · exact main true xs h2 h1
  · exact main false (dropWs st.it) h2 rfl

end Json
end Eni
