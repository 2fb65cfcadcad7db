import Verif.Spec.OneDef
/-!
# Proofs about programs of several parts
-/
namespace Eni.Link
open Json Spec

/-- The outcome is the one of the parser of Model/JsonParser, and what is thrown satisfies `E`. -/
def Rel {α : Type} (E : Nat → Prop) : Out α → PRes α → Prop
  | .ok a st, r => r = .ok a st
  | .thrown e ty st, r => r = .err e st ∧ E ty
  | .ub u, r => r = .ub u
  | .diverge, r => r = .diverge

def RelQ {α : Type} (E : Nat → Prop) (x : Q α) (y : P α) : Prop := ∀ st, Rel E (x st) (y st)

theorem RelQ.bind {α β : Type} {E : Nat → Prop} {x : Q α} {y : P α} {f : α → Q β} {g : α → P β} (h : RelQ E x y) (hf : ∀ a, RelQ E (f a) (g a)) :
    RelQ E (x >>= f) (y >>= g) := by
  intro st
  have := h st
  show Rel E (Q.bind x f st) (P.bind y g st)
  unfold Q.bind P.bind
  cases hx : x st with
  | ok a st' => rw [hx] at this; simp only [Rel] at this; simp only [this]; exact hf a st'
  | thrown e ty st' => rw [hx] at this; simp only [Rel] at this; simp only [this.1]; exact ⟨rfl, this.2⟩
  | ub u => rw [hx] at this; simp only [Rel] at this; simp only [this]; rfl
  | diverge => rw [hx] at this; simp only [Rel] at this; simp only [this]; rfl

theorem RelQ.pure {α : Type} {E : Nat → Prop} (a : α) : RelQ E (Pure.pure a) (Pure.pure a) := fun _ => rfl

theorem RelQ.ite {α : Type} {E : Nat → Prop} {x x' : Q α} {y y' : P α} (c : Bool) (h : RelQ E x y) (h' : RelQ E x' y') :
    RelQ E (if c then x else x') (if c then y else y') := by
  cases c
  · simpa using h'
  · simpa using h

/-- The function throws nothing. -/
def Calm {α : Type} (x : P α) : Prop := ∀ st e st', x st ≠ .err e st'

theorem RelQ.ofP {α : Type} {E : Nat → Prop} {x : P α} (p : Nat) (h : Calm x) : RelQ E (ofP p x) x := by
  intro st
  unfold Link.ofP
  cases hx : x st with
  | ok a st' => rfl
  | err e st' => exact absurd hx (h st e st')
  | ub u => rfl
  | diverge => rfl

theorem calm_haveC (c : UInt8) : Calm (haveC c) := by
  intro st e st' h
  unfold haveC at h
  repeat' split at h
  all_goals cases h

theorem calm_haveLit (e a : Nat) (pat : Bytes) : Calm (haveLit e a pat) := by
  intro st e st' h
  unfold haveLit at h
  repeat' split at h
  all_goals cases h

theorem calm_skipWs : Calm skipWs := fun _ _ _ h => by cases h
theorem calm_emit (e : Ev) : Calm (emit e) := fun _ _ _ h => by cases h
theorem calm_atEnd : Calm atEnd := fun _ _ _ h => by cases h

theorem calm_takeByte : Calm takeByte := by
  intro st e st' h
  unfold takeByte at h
  split at h <;> cases h

theorem calm_parseIntPart (s : Bytes) : Calm (parseIntPart s) := by
  intro st e st' h
  unfold parseIntPart parseDigits at h
  dsimp only at h
  repeat' split at h
  all_goals cases h

variable {b : Build} {u : Nat}

/-- What may be thrown. -/
abbrev Thr (b : Build) (u : Nat) : Nat → Prop := fun ty => Frame b u ty .error

theorem rel_error {α : Type} {p : Nat} {f : Fn} (h : Frame b u p f) (hc : Calls f .error) (e : PErr) :
    RelQ (Thr b u) (error b p f e : Q α) (Json.error e) := fun _ => ⟨rfl, h.call hc⟩

theorem rel_expectC {p : Nat} {f : Fn} (h : Frame b u p f) (hc : Calls f .expectC) (c : UInt8) (e : PErr) :
    RelQ (Thr b u) (expectC b p f c e) (Json.expectC c e) :=
  .bind (.ofP _ (calm_haveC c)) fun x => .ite x (.pure _) (rel_error (h.call hc) .noChar e)

theorem rel_expectS {p : Nat} {f : Fn} (h : Frame b u p f) (hc : Calls f .expectS) (n a : Nat) (s : Bytes) (e : PErr) :
    RelQ (Thr b u) (expectS b p f n a s e) (Json.expectLit n a s e) :=
  .bind (.ofP _ (calm_haveLit n a s)) fun x => .ite x (.pure _) (rel_error (h.call hc) .noWord e)

theorem rel_boolean (L : Layout) {p : Nat} (h : Frame b u p .boolean) : RelQ (Thr b u) (parseBoolean b L p) (Json.parseBoolean L) :=
  .bind (.ofP _ calm_skipWs) fun _ => .bind (.ofP _ (calm_haveC _)) fun x =>
    .ite x (.bind (rel_expectS h .word _ _ _ _) fun _ => .bind (.ofP _ (calm_emit _)) fun _ => .pure _)
      (.bind (.ofP _ (calm_haveC _)) fun x =>
        .ite x (.bind (rel_expectS h .word _ _ _ _) fun _ => .bind (.ofP _ (calm_emit _)) fun _ => .pure _) (.pure _))

theorem rel_number {p : Nat} (h : Frame b u p .number) : RelQ (Thr b u) (parseNumber b p) Json.parseNumber :=
  .bind (.ofP _ calm_skipWs) fun _ => .bind (.ofP _ (calm_haveC _)) fun x => .bind (.ofP _ (calm_haveC _)) fun y =>
    .ite y (.bind (.ofP _ (calm_emit _)) fun _ => .pure _)
      (.bind (.ofP _ (calm_parseIntPart _)) fun r => by
        obtain ⟨ok, s⟩ := r
        exact .ite ok (.bind (.ofP _ (calm_emit _)) fun _ => .pure _)
          (.ite x (.bind (rel_error h .noDigit _) fun _ => .pure _) (.pure _)))

theorem rel_codepoint {p : Nat} (h : Frame b u p .codepoint) : RelQ (Thr b u) (parseCodepoint b p) Json.parseCodepoint := by
  intro st
  unfold parseCodepoint ofP Json.parseCodepoint
  rcases hv : validCode st.it 0 4 with x | e | e | _ | c
  · cases x <;> dsimp only
    · exact ⟨rfl, h.call .noCode⟩
    · split
      · rename_i heq; split at heq
        · cases heq; rfl
        · cases heq
      · rename_i heq; split at heq <;> cases heq
      · rename_i heq; split at heq
        · cases heq
        · cases heq; rfl
      · rename_i heq; split at heq <;> cases heq
  all_goals rfl

theorem rel_escape {p : Nat} (h : Frame b u p .escape) : RelQ (Thr b u) (parseEscape b p) Json.parseEscape := by
  unfold parseEscape Json.parseEscape
  iterate 8 refine .bind (.ofP _ (calm_haveC _)) fun x => .ite x (.pure _) ?_
  exact .bind (.ofP _ (calm_haveC _)) fun x => .ite x (rel_codepoint (h.call .code)) (rel_error h .noEscape _)

theorem rel_strLoop {p : Nat} (h : Frame b u p .string) : ∀ n s, RelQ (Thr b u) (strLoop b p n s) (Json.strLoop n s)
  | 0, _ => fun _ => rfl
  | n + 1, s => by
    unfold strLoop Json.strLoop
    refine .bind (.ofP _ (calm_haveC _)) fun x => .ite x (.pure _) (.bind (.ofP _ calm_atEnd) fun y => ?_)
    have : RelQ (Thr b u)
        (ofP p (haveC 92) >>= fun z => if z = true then parseEscape b (b.part p .string .escape) >>= fun c => strLoop b p n (s ++ [c])
          else ofP p takeByte >>= fun c => strLoop b p n (s ++ [c]))
        (haveC 92 >>= fun z => if z = true then Json.parseEscape >>= fun c => Json.strLoop n (s ++ [c])
          else takeByte >>= fun c => Json.strLoop n (s ++ [c])) :=
      .bind (.ofP _ (calm_haveC _)) fun z => .ite z (.bind (rel_escape (h.call .escape)) fun c => rel_strLoop h n _)
        (.bind (.ofP _ calm_takeByte) fun c => rel_strLoop h n _)
    exact .ite y (.bind (rel_error h .noQuote _) fun _ => this) this

theorem rel_string (k : Bool) {p : Nat} (h : Frame b u p .string) : RelQ (Thr b u) (parseString b k p) (Json.parseString k) :=
  .bind (.ofP _ calm_skipWs) fun _ => .bind (.ofP _ (calm_haveC _)) fun x =>
    .ite x (.bind (fun st => rel_strLoop h _ _ st) fun _ => .bind (.ofP _ (calm_emit _)) fun _ => .pure _) (.pure _)

theorem rel_elems {pv : Q Unit} {pv' : P Unit} (p : Nat) (hv : RelQ (Thr b u) pv pv') :
    ∀ n, RelQ (Thr b u) (elemsLoop pv p n) (Json.elemsLoop pv' n)
  | 0 => fun _ => rfl
  | n + 1 => .bind hv fun _ => .bind (.ofP _ calm_skipWs) fun _ => .bind (.ofP _ (calm_haveC _)) fun x => .ite x (rel_elems p hv n) (.pure _)

theorem rel_array {pv : Nat → Q Unit} {pv' : P Unit} {p : Nat} (h : Frame b u p .array) (hv : ∀ q, Frame b u q .value → RelQ (Thr b u) (pv q) pv') :
    RelQ (Thr b u) (parseArray b pv p) (Json.parseArray pv') :=
  .bind (.ofP _ calm_skipWs) fun _ => .bind (.ofP _ (calm_haveC _)) fun x =>
    .ite x (.bind (.ofP _ (calm_emit _)) fun _ => .bind (.ofP _ calm_skipWs) fun _ => .bind (.ofP _ (calm_haveC _)) fun y =>
      .ite y (.bind (.ofP _ (calm_emit _)) fun _ => .pure _)
        (.bind (fun st => rel_elems p (hv _ (h.call .elem)) _ st) fun _ => .bind (rel_expectC h .comma _ _) fun _ =>
          .bind (.ofP _ (calm_emit _)) fun _ => .pure _)) (.pure _)

theorem rel_members {pv : Nat → Q Unit} {pv' : P Unit} {p : Nat} (h : Frame b u p .object) (hv : ∀ q, Frame b u q .value → RelQ (Thr b u) (pv q) pv') :
    ∀ n, RelQ (Thr b u) (membersLoop b pv p n) (Json.membersLoop pv' n)
  | 0 => fun _ => rfl
  | n + 1 => by
    have : RelQ (Thr b u)
        (ofP p skipWs >>= fun _ => expectC b p .object 58 .colon >>= fun _ => pv (b.part p .object .value) >>= fun _ => ofP p skipWs >>= fun _ =>
          ofP p (haveC 44) >>= fun z => if z = true then membersLoop b pv p n else pure ())
        (skipWs >>= fun _ => Json.expectC 58 .colon >>= fun _ => pv' >>= fun _ => skipWs >>= fun _ =>
          haveC 44 >>= fun z => if z = true then Json.membersLoop pv' n else pure ()) :=
      .bind (.ofP _ calm_skipWs) fun _ => .bind (rel_expectC h .colon _ _) fun _ => .bind (hv _ (h.call .member)) fun _ =>
        .bind (.ofP _ calm_skipWs) fun _ => .bind (.ofP _ (calm_haveC _)) fun z => .ite z (rel_members h hv n) (.pure _)
    unfold membersLoop Json.membersLoop
    exact .bind (rel_string true (h.call .key)) fun x => .ite x this (.bind (rel_error h .noKey _) fun _ => this)

theorem rel_object {pv : Nat → Q Unit} {pv' : P Unit} {p : Nat} (h : Frame b u p .object) (hv : ∀ q, Frame b u q .value → RelQ (Thr b u) (pv q) pv') :
    RelQ (Thr b u) (parseObject b pv p) (Json.parseObject pv') :=
  .bind (.ofP _ calm_skipWs) fun _ => .bind (.ofP _ (calm_haveC _)) fun x =>
    .ite x (.bind (.ofP _ (calm_emit _)) fun _ => .bind (.ofP _ calm_skipWs) fun _ => .bind (.ofP _ (calm_haveC _)) fun y =>
      .ite y (.bind (.ofP _ (calm_emit _)) fun _ => .pure _)
        (.bind (fun st => rel_members h hv _ st) fun _ => .bind (rel_expectC h .colon _ _) fun _ =>
          .bind (.ofP _ (calm_emit _)) fun _ => .pure _)) (.pure _)

theorem rel_value (L : Layout) : ∀ n p, Frame b u p .value → RelQ (Thr b u) (parseValue b L n p) (Json.parseValue L n)
  | 0, _, _ => fun _ => rfl
  | n + 1, p, h =>
    .bind (rel_object (h.call .object) fun q hq => rel_value L n q hq) fun x => .ite x (.pure _)
      (.bind (rel_array (h.call .array) fun q hq => rel_value L n q hq) fun x => .ite x (.pure _)
        (.bind (rel_string false (h.call .string)) fun x => .ite x (.pure _)
          (.bind (rel_boolean L (h.call .boolean)) fun x => .ite x (.pure _)
            (.bind (rel_number (h.call .number)) fun x => .ite x (.pure _) (rel_error h .noValue _)))))

theorem frame_ctor : Frame b u (b.part u .caller .ctor) .ctor := Frame.caller.call .ctor

theorem ctor_unique {q : Nat} (h : Frame b u q .ctor) : q = b.part u .caller .ctor := by
  cases h with
  | call hf hc =>
    cases hc
    cases hf with
    | caller => rfl
    | call _ hc => cases hc

/-- In any build, the constructor ends as the one of Model/JsonParser, unless a text is rejected with an exception of a part that may throw. -/
theorem parse_build (b : Build) (u : Nat) (L : Layout) (s : Bytes) :
    parse b u L s = (Json.parse L s >>= fun r => .ok (.parser r)) ∨
    ∃ r ty, Json.parse L s = .ok r ∧ r.success = false ∧ parse b u L s = .ok (.escaped ty) ∧ Frame b u ty .error ∧ ty ≠ b.part u .caller .ctor := by
  have := rel_value (b := b) (u := u) L (s.length + 1) _ (frame_ctor.call .start) ⟨s, []⟩
  unfold parse Json.parse
  dsimp only
  cases hx : parseValue b L (s.length + 1) (b.part (b.part u .caller .ctor) .ctor .value) ⟨s, []⟩ with
  | ok a st =>
    rw [hx] at this; simp only [Rel] at this; rw [this]; dsimp only
    left; cases cbRun .init st.ev <;> rfl
  | thrown e ty st =>
    rw [hx] at this; simp only [Rel] at this; rw [this.1]; dsimp only
    by_cases ht : ty = b.part u .caller .ctor
    · left; simp only [ht, if_true]; cases cbRun .init st.ev <;> rfl
    · simp only [ht, if_false]
      cases hc : cbRun .init st.ev with
      | ok cb => exact .inr ⟨_, ty, rfl, rfl, rfl, this.2, ht⟩
      | throw _ => left; rfl
      | ub _ => left; rfl
      | diverge => left; rfl
      | exit _ => left; rfl
  | ub w => rw [hx] at this; simp only [Rel] at this; rw [this]; left; rfl
  | diverge => rw [hx] at this; simp only [Rel] at this; rw [this]; left; rfl

/-- A rejected text: what is thrown comes from a part that may throw, and is caught if it is the part of the constructor. -/
theorem parse_rejected (b : Build) (u : Nat) (L : Layout) (s : Bytes) {v : Value} (h : Json.parse L s = .ok ⟨false, v⟩) :
    ∃ ty, Frame b u ty .error ∧ (ty = b.part u .caller .ctor → parse b u L s = .ok (.parser ⟨false, v⟩)) ∧
      (ty ≠ b.part u .caller .ctor → parse b u L s = .ok (.escaped ty)) := by
  have := rel_value (b := b) (u := u) L (s.length + 1) _ (frame_ctor.call .start) ⟨s, []⟩
  unfold parse
  unfold Json.parse at h
  dsimp only
  cases hx : parseValue b L (s.length + 1) (b.part (b.part u .caller .ctor) .ctor .value) ⟨s, []⟩ with
  | ok a st =>
    rw [hx] at this; simp only [Rel] at this; rw [this] at h; dsimp only at h
    obtain ⟨cb, _, h⟩ := Res.bind_eq_ok.mp h
    cases h
  | thrown e ty st =>
    rw [hx] at this; simp only [Rel] at this; rw [this.1] at h; dsimp only at h
    obtain ⟨cb, hcb, h⟩ := Res.bind_eq_ok.mp h
    cases h
    exact ⟨ty, this.2, fun ht => by simp only [hcb, Res.ok_bind, if_pos ht], fun ht => by simp only [hcb, Res.ok_bind, if_neg ht]⟩
  | ub w => rw [hx] at this; simp only [Rel] at this; rw [this] at h; cases h
  | diverge => rw [hx] at this; simp only [Rel] at this; rw [this] at h; cases h

/-! ### Every way to throw is taken by some text -/

/-- The callbacks can be carried out. -/
def Runs (op : List Ev) : Prop := ∀ cb, ∃ cb', cbRun cb op = .ok cb'

theorem cbRun_append (cb : CbState) (a c : List Ev) : cbRun cb (a ++ c) = (cbRun cb a >>= fun cb => cbRun cb c) := by
  induction a generalizing cb with
  | nil => rfl
  | cons e es ih =>
    simp only [List.cons_append, cbRun]
    cases cbStep cb e with
    | ok cb' => exact ih cb'
    | _ => simp only [Res.throw_bind, Res.ub_bind, Res.diverge_bind, Res.exit_bind]

theorem Runs.append {a c : List Ev} (ha : Runs a) (hc : Runs c) : Runs (a ++ c) := by
  intro cb
  obtain ⟨cb', h⟩ := ha cb
  obtain ⟨cb'', h'⟩ := hc cb'
  exact ⟨cb'', by rw [cbRun_append, h, Res.ok_bind, h']⟩

theorem runs_nil : Runs [] := fun cb => ⟨cb, rfl⟩
theorem runs_object : Runs [.beginObject] := fun _ => ⟨_, rfl⟩
theorem runs_member : Runs [.beginObject, .string [] true] := fun _ => ⟨_, rfl⟩
theorem runs_array : Runs [.beginArray] := fun _ => ⟨_, rfl⟩
theorem runs_elem : Runs [.beginArray, .number [48]] := fun _ => ⟨_, rfl⟩

/-- On the rest `it` of a text the function throws the class of part `ty`. -/
def Throws {α : Type} (x : Q α) (ty : Nat) (it : Bytes) : Prop :=
  ∀ ev, ∃ e op it', x ⟨it, ev⟩ = .thrown e ty ⟨it', ev ++ op⟩ ∧ Runs op

/-- On the rest `it` the function returns `a` and makes the calls `op`. -/
def Yields {α : Type} (x : Q α) (it : Bytes) (a : α) (it' : Bytes) (op : List Ev) : Prop := ∀ ev, x ⟨it, ev⟩ = .ok a ⟨it', ev ++ op⟩

theorem Throws.bind {α β : Type} {x : Q α} {ty : Nat} {it : Bytes} (h : Throws x ty it) (f : α → Q β) : Throws (x >>= f) ty it := by
  intro ev
  obtain ⟨e, op, it', h, hr⟩ := h ev
  exact ⟨e, op, it', by show Q.bind x f _ = _; unfold Q.bind; rw [h], hr⟩

theorem Yields.bind {α β : Type} {x : Q α} {a : α} {it it' : Bytes} {op : List Ev} (h : Yields x it a it' op) (hop : Runs op) {f : α → Q β} {ty : Nat}
    (hf : Throws (f a) ty it') : Throws (x >>= f) ty it := by
  intro ev
  obtain ⟨e, op', it'', h', hr⟩ := hf (ev ++ op)
  exact ⟨e, op ++ op', it'', by show Q.bind x f _ = _; unfold Q.bind; rw [h]; simp only [h', List.append_assoc], hop.append hr⟩

theorem Yields.next {α β : Type} {x : Q α} {a : α} {it it' : Bytes} {op : List Ev} (h : Yields x it a it' op) {f : α → Q β} {c : β} {it'' : Bytes}
    {op' : List Ev} (hf : Yields (f a) it' c it'' op') : Yields (x >>= f) it c it'' (op ++ op') := by
  intro ev
  show Q.bind x f _ = _
  unfold Q.bind; rw [h]; dsimp only; rw [hf, List.append_assoc]

theorem yields_pure {α : Type} (a : α) (it : Bytes) : Yields (pure a) it a it [] := fun ev => by rw [List.append_nil]; rfl

theorem throws_error {α : Type} (b : Build) (p : Nat) (f : Fn) (e : PErr) (it : Bytes) : Throws (error b p f e : Q α) (b.part p f .error) it :=
  fun ev => ⟨e, [], it, by simp [error], runs_nil⟩

theorem yields_ws (p : Nat) {c : UInt8} (r : Bytes) (h : isWs c = false) : Yields (ofP p skipWs) (c :: r) () (c :: r) [] := by
  intro ev; simp [ofP, skipWs, dropWs, h]

theorem yields_have (p : Nat) (c : UInt8) (r : Bytes) : Yields (ofP p (haveC c)) (c :: r) true r [] := by
  intro ev; simp [ofP, haveC]

theorem yields_have_not (p : Nat) {c d : UInt8} (r : Bytes) (h : d ≠ c) : Yields (ofP p (haveC c)) (d :: r) false (d :: r) [] := by
  intro ev; simp [ofP, haveC, h]

theorem yields_emit (p : Nat) (e : Ev) (r : Bytes) : Yields (ofP p (emit e)) r () r [e] := by
  intro ev; simp [ofP, emit]

/-- `parse_object`, `parse_array`, `parse_string`, `parse_boolean` at a character that is not theirs. -/
theorem no_object (b : Build) (pv : Nat → Q Unit) (p : Nat) {c : UInt8} (r : Bytes) (hw : isWs c = false) (h : c ≠ 123) :
    Yields (parseObject b pv p) (c :: r) false (c :: r) [] :=
  (yields_ws p r hw).next ((yields_have_not p r h).next (yields_pure false _))

theorem no_array (b : Build) (pv : Nat → Q Unit) (p : Nat) {c : UInt8} (r : Bytes) (hw : isWs c = false) (h : c ≠ 91) :
    Yields (parseArray b pv p) (c :: r) false (c :: r) [] :=
  (yields_ws p r hw).next ((yields_have_not p r h).next (yields_pure false _))

theorem no_string (b : Build) (k : Bool) (p : Nat) {c : UInt8} (r : Bytes) (hw : isWs c = false) (h : c ≠ 34) :
    Yields (parseString b k p) (c :: r) false (c :: r) [] :=
  (yields_ws p r hw).next ((yields_have_not p r h).next (yields_pure false _))

theorem no_boolean (b : Build) (L : Layout) (p : Nat) {c : UInt8} (r : Bytes) (hw : isWs c = false) (h : c ≠ 116) (h' : c ≠ 102) :
    Yields (parseBoolean b L p) (c :: r) false (c :: r) [] :=
  (yields_ws p r hw).next ((yields_have_not p r h).next ((yields_have_not p r h').next (yields_pure false _)))

/-- The code of `f` from part `p` throws the class of part `ty` on the rest `it`. The first characters make sure that `parse_value` gets there. -/
def HitsF (b : Build) (L : Layout) : Fn → Nat → Nat → Bytes → Prop
  | .caller, p, ty, it => ∀ n, it.length < n → Throws (parseValue b L n (b.part (b.part p .caller .ctor) .ctor .value)) ty it
  | .ctor, p, ty, it => ∀ n, it.length < n → Throws (parseValue b L n (b.part p .ctor .value)) ty it
  | .value, p, ty, it => (∃ c r, it = c :: r ∧ isWs c = false ∧ c ≠ 93) ∧ ∀ n, it.length < n → Throws (parseValue b L n p) ty it
  | .object, p, ty, it => (∃ r, it = 123 :: r) ∧ ∀ n, it.length ≤ n → Throws (parseObject b (parseValue b L n) p) ty it
  | .array, p, ty, it => (∃ r, it = 91 :: r) ∧ ∀ n, it.length ≤ n → Throws (parseArray b (parseValue b L n) p) ty it
  | .string, p, ty, it => (∃ r, it = 34 :: r) ∧ ∀ k, Throws (parseString b k p) ty it
  | .boolean, p, ty, it => (∃ r, it = 116 :: r) ∧ Throws (parseBoolean b L p) ty it
  | .number, p, ty, it => (∃ r, it = 45 :: r) ∧ Throws (parseNumber b p) ty it
  | .escape, p, ty, it => Throws (parseEscape b p) ty it
  | .codepoint, p, ty, it => Throws (parseCodepoint b p) ty it
  | .expectC, p, ty, _ => b.part p .expectC .error = ty
  | .expectS, p, ty, _ => b.part p .expectS .error = ty
  | .error, p, ty, _ => p = ty

theorem hits_step (b : Build) (L : Layout) {f g : Fn} (hc : Calls f g) {p ty : Nat} {it : Bytes} (h : HitsF b L g (b.part p f g) ty it) :
    ∃ it', HitsF b L f p ty it' := by
  cases hc with
  | ctor => exact ⟨it, h⟩
  | start => exact ⟨it, h.2⟩
  | object =>
    obtain ⟨⟨r, rfl⟩, h⟩ := h
    refine ⟨123 :: r, ⟨_, _, rfl, by decide, by decide⟩, fun n hn => ?_⟩
    obtain ⟨n, rfl⟩ : ∃ m, n = m + 1 := ⟨n - 1, by omega⟩
    exact (h n (by omega)).bind _
  | array =>
    obtain ⟨⟨r, rfl⟩, h⟩ := h
    refine ⟨91 :: r, ⟨_, _, rfl, by decide, by decide⟩, fun n hn => ?_⟩
    obtain ⟨n, rfl⟩ : ∃ m, n = m + 1 := ⟨n - 1, by omega⟩
    exact (no_object b _ _ r (by decide) (by decide)).bind runs_nil ((h n (by omega)).bind _)
  | string =>
    obtain ⟨⟨r, rfl⟩, h⟩ := h
    refine ⟨34 :: r, ⟨_, _, rfl, by decide, by decide⟩, fun n hn => ?_⟩
    obtain ⟨n, rfl⟩ : ∃ m, n = m + 1 := ⟨n - 1, by omega⟩
    exact (no_object b _ _ r (by decide) (by decide)).bind runs_nil
      ((no_array b _ _ r (by decide) (by decide)).bind runs_nil ((h false).bind _))
  | boolean =>
    obtain ⟨⟨r, rfl⟩, h⟩ := h
    refine ⟨116 :: r, ⟨_, _, rfl, by decide, by decide⟩, fun n hn => ?_⟩
    obtain ⟨n, rfl⟩ : ∃ m, n = m + 1 := ⟨n - 1, by omega⟩
    exact (no_object b _ _ r (by decide) (by decide)).bind runs_nil
      ((no_array b _ _ r (by decide) (by decide)).bind runs_nil ((no_string b _ _ r (by decide) (by decide)).bind runs_nil (h.bind _)))
  | number =>
    obtain ⟨⟨r, rfl⟩, h⟩ := h
    refine ⟨45 :: r, ⟨_, _, rfl, by decide, by decide⟩, fun n hn => ?_⟩
    obtain ⟨n, rfl⟩ : ∃ m, n = m + 1 := ⟨n - 1, by omega⟩
    exact (no_object b _ _ r (by decide) (by decide)).bind runs_nil
      ((no_array b _ _ r (by decide) (by decide)).bind runs_nil ((no_string b _ _ r (by decide) (by decide)).bind runs_nil
        ((no_boolean b L _ r (by decide) (by decide) (by decide)).bind runs_nil (h.bind _))))
  | noValue =>
    cases h
    refine ⟨[120], ⟨_, _, rfl, by decide, by decide⟩, fun n hn ev => ?_⟩
    obtain ⟨n, rfl⟩ : ∃ m, n = m + 1 := ⟨n - 1, by omega⟩
    exact ⟨.value, [], [120], by rw [List.append_nil]; rfl, runs_nil⟩
  | key =>
    obtain ⟨⟨r, rfl⟩, h⟩ := h
    refine ⟨123 :: 34 :: r, ⟨_, rfl⟩, fun n hn => ?_⟩
    refine (yields_ws _ _ (by decide)).bind runs_nil ((yields_have _ _ _).bind runs_nil ((yields_emit _ _ _).bind runs_object
      ((yields_ws _ _ (by decide)).bind runs_nil ((yields_have_not _ _ (by decide)).bind runs_nil ?_))))
    refine Throws.bind (fun ev => ?_) _
    exact (h true).bind _ ev
  | noKey =>
    cases h
    exact ⟨[123, 120], ⟨_, rfl⟩, fun n hn ev => ⟨.key, [.beginObject], [120], rfl, runs_object⟩⟩
  | member =>
    obtain ⟨⟨c, r, rfl, hw, h93⟩, h⟩ := h
    refine ⟨123 :: 34 :: 34 :: 58 :: c :: r, ⟨_, rfl⟩, fun n hn ev => ?_⟩
    obtain ⟨e, op, it', hh, hr⟩ := h n (by simp only [List.length_cons] at hn ⊢; omega) (ev ++ [.beginObject, .string [] true])
    refine ⟨e, [.beginObject, .string [] true] ++ op, it', ?_, runs_member.append hr⟩
    have : parseObject b (parseValue b L n) p ⟨123 :: 34 :: 34 :: 58 :: c :: r, ev⟩ =
        Q.bind (Q.bind (parseValue b L n (b.part p .object .value)) (fun _ => ofP p skipWs >>= fun _ => ofP p (haveC 44) >>= fun z =>
          if z = true then membersLoop b (parseValue b L n) p (r.length + 4) else pure ()))
        (fun _ => expectC b p .object 125 .objectEnd >>= fun _ => ofP p (emit .endObject) >>= fun _ => pure true)
        ⟨c :: r, (ev ++ [.beginObject]) ++ [.string [] true]⟩ := rfl
    rw [this]
    simp only [List.append_assoc, List.singleton_append]
    unfold Q.bind
    rw [hh]
    simp only [List.append_assoc]
  | colon =>
    cases h
    exact ⟨[123, 34, 34, 120], ⟨_, rfl⟩, fun n hn ev => ⟨.colon, [.beginObject, .string [] true], [120], by
      rw [← List.singleton_append (l := [Ev.string [] true]), ← List.append_assoc]; rfl, runs_member⟩⟩
  | elem =>
    obtain ⟨⟨c, r, rfl, hw, h93⟩, h⟩ := h
    refine ⟨91 :: c :: r, ⟨_, rfl⟩, fun n hn => ?_⟩
    refine (yields_ws _ _ (by decide)).bind runs_nil ((yields_have _ _ _).bind runs_nil ((yields_emit _ _ _).bind runs_array
      ((yields_ws _ _ hw).bind runs_nil ((yields_have_not _ _ h93).bind runs_nil ?_))))
    refine Throws.bind (fun ev => ?_) _
    exact (h n (by simp only [List.length_cons] at hn ⊢; omega)).bind _ ev
  | comma =>
    cases h
    refine ⟨[91, 48, 120], ⟨_, rfl⟩, fun n hn ev => ⟨.arrayEnd, [.beginArray, .number [48]], [120], ?_, runs_elem⟩⟩
    obtain ⟨n, rfl⟩ : ∃ m, n = m + 1 := ⟨n - 1, by simp only [List.length_cons] at hn; omega⟩
    rw [← List.singleton_append (l := [Ev.number [48]]), ← List.append_assoc]
    rfl
  | escape =>
    refine ⟨34 :: 92 :: it, ⟨_, rfl⟩, fun k => ?_⟩
    refine (yields_ws _ _ (by decide)).bind runs_nil ((yields_have _ _ _).bind runs_nil (Throws.bind (fun ev => ?_) _))
    exact (yields_have_not _ _ (by decide)).bind runs_nil (Yields.bind (a := false) (it' := 92 :: it) (op := []) (fun ev => by simp [ofP, atEnd]) runs_nil
      ((yields_have _ _ _).bind runs_nil (h.bind _))) ev
  | noQuote =>
    cases h
    exact ⟨[34], ⟨_, rfl⟩, fun k ev => ⟨.unterminated, [], [], by rw [List.append_nil]; rfl, runs_nil⟩⟩
  | code =>
    refine ⟨117 :: it, ?_⟩
    iterate 8 refine (yields_have_not _ _ (by decide)).bind runs_nil ?_
    exact (yields_have _ _ _).bind runs_nil h
  | noEscape =>
    cases h
    exact ⟨[120], fun ev => ⟨.escape, [], [120], by rw [List.append_nil]; rfl, runs_nil⟩⟩
  | noCode =>
    cases h
    exact ⟨[120], fun ev => ⟨.code, [], [120], by rw [List.append_nil]; rfl, runs_nil⟩⟩
  | word =>
    cases h
    refine ⟨[116, 120], ⟨_, rfl⟩, ?_⟩
    refine (yields_ws _ _ (by decide)).bind runs_nil ((yields_have _ _ _).bind runs_nil (Throws.bind ?_ _))
    refine Yields.bind (a := false) (it' := [120]) (op := []) (fun ev => ?_) runs_nil (throws_error b _ .expectS _ _)
    have : haveLitLoop L.bufEnd L.rue [120] 0 [114, 117, 101] = .ok false := by
      unfold haveLitLoop
      split <;> rfl
    simp [ofP, haveLit, this]
  | noDigit =>
    cases h
    exact ⟨[45], ⟨_, rfl⟩, fun ev => ⟨.digits, [], [], by rw [List.append_nil]; rfl, runs_nil⟩⟩
  | noChar => exact ⟨[], h⟩
  | noWord => exact ⟨[], h⟩

theorem hits_frame (b : Build) (u : Nat) (L : Layout) {q : Nat} {f : Fn} (hf : Frame b u q f) {ty : Nat} {it : Bytes} (h : HitsF b L f q ty it) :
    ∃ s, HitsF b L .caller u ty s := by
  induction hf generalizing it with
  | caller => exact ⟨it, h⟩
  | call _ hc ih =>
    obtain ⟨it', h'⟩ := hits_step b L hc h
    exact ih h'

/-- Whatever may throw does so for some text. -/
theorem some_text (b : Build) (u : Nat) (L : Layout) {q : Nat} (hf : Frame b u q .error) (hq : q ≠ b.part u .caller .ctor) :
    ∃ s, parse b u L s = .ok (.escaped q) := by
  obtain ⟨s, h⟩ := hits_frame b u L hf (ty := q) (it := []) rfl
  obtain ⟨e, op, it', h, hr⟩ := h (s.length + 1) (Nat.lt_succ_self _) []
  obtain ⟨cb, hcb⟩ := hr .init
  refine ⟨s, ?_⟩
  unfold parse
  dsimp only
  rw [h]
  simp only [List.nil_append, hcb, Res.ok_bind, if_neg hq]

end Eni.Link
