import Verif.Model.ScanCost
/-! # Counting parser: it is the parser, and its count is linear -/
namespace Eni
namespace Json

/-! ### Erasure -/

theorem T.bind_fst {α β : Type} {x : T α} {p : P α} {f : α → T β} {g : α → P β} (h : ∀ st, (x st).1 = p st)
    (hf : ∀ a st, (f a st).1 = g a st) (st : PState) : ((x >>= f) st).1 = (p >>= g) st := by
  show (T.bind x f st).1 = P.bind p g st
  unfold T.bind P.bind
  rw [← h st]
  rcases x st with ⟨r, k⟩
  cases r <;> simp [hf]

theorem looks_fst {α : Type} (k : PState → Nat) (p : P α) (st : PState) : (looks k p st).1 = p st := rfl
theorem pure_fst {α : Type} (a : α) (st : PState) : ((pure a : T α) st).1 = (pure a : P α) st := rfl

theorem ite_fst {α : Type} {b : Prop} [Decidable b] {x y : T α} {p q : P α} (h : ∀ st, (x st).1 = p st) (h' : ∀ st, (y st).1 = q st)
    (st : PState) : ((if b then x else y) st).1 = (if b then p else q) st := by split <;> simp [h, h']

macro "erase" : tactic => `(tactic| repeat' (first
  | exact looks_fst _ _ | exact pure_fst _ | (with_reducible assumption)
  | exact fun _ => rfl
  | refine T.bind_fst ?_ ?_ | refine ite_fst ?_ ?_ | intro _))

theorem expectC_fst (c e) : ∀ st, (expectCT c e st).1 = expectC c e st := by unfold expectCT expectC; erase
theorem expectLit_fst (a b p e) : ∀ st, (expectLitT a b p e st).1 = expectLit a b p e st := by unfold expectLitT expectLit; erase
theorem boolean_fst (L) : ∀ st, (parseBooleanT L st).1 = parseBoolean L st := by
  unfold parseBooleanT parseBoolean
  refine T.bind_fst (looks_fst _ _) fun _ => T.bind_fst (looks_fst _ _) fun b => ite_fst ?_ ?_
  · refine T.bind_fst (expectLit_fst _ _ _ _) fun _ => ?_; erase
  · refine T.bind_fst (looks_fst _ _) fun b => ite_fst ?_ ?_
    · refine T.bind_fst (expectLit_fst _ _ _ _) fun _ => ?_; erase
    · erase
theorem number_fst : ∀ st, (parseNumberT st).1 = parseNumber st := by
  unfold parseNumberT parseNumber; erase
theorem escape_fst : ∀ st, (parseEscapeT st).1 = parseEscape st := by
  unfold parseEscapeT parseEscape; erase
theorem strLoop_fst (n) : ∀ s st, (strLoopT n s st).1 = strLoop n s st := by
  induction n with
  | zero => intro s st; rfl
  | succ n ih =>
    intro s
    unfold strLoopT strLoop
    have := escape_fst
    erase
    all_goals first | exact ih _ _ | exact escape_fst _
theorem string_fst (k) : ∀ st, (parseStringT k st).1 = parseString k st := by
  unfold parseStringT parseString
  refine T.bind_fst (looks_fst _ _) fun _ => T.bind_fst (looks_fst _ _) fun b => ite_fst ?_ ?_
  · refine T.bind_fst (fun st => strLoop_fst _ _ st) fun _ => ?_; erase
  · erase

theorem elems_fst {pt : T Unit} {pv : P Unit} (h : ∀ st, (pt st).1 = pv st) (n) : ∀ st, (elemsLoopT pt n st).1 = elemsLoop pv n st := by
  induction n with
  | zero => intro st; rfl
  | succ n ih =>
    unfold elemsLoopT elemsLoop
    refine T.bind_fst h fun _ => T.bind_fst (looks_fst _ _) fun _ => T.bind_fst (looks_fst _ _) fun b => ite_fst ih ?_
    erase

theorem array_fst {pt : T Unit} {pv : P Unit} (h : ∀ st, (pt st).1 = pv st) : ∀ st, (parseArrayT pt st).1 = parseArray pv st := by
  unfold parseArrayT parseArray
  refine T.bind_fst (looks_fst _ _) fun _ => T.bind_fst (looks_fst _ _) fun b => ite_fst ?_ (pure_fst _)
  refine T.bind_fst (looks_fst _ _) fun _ => T.bind_fst (looks_fst _ _) fun _ => T.bind_fst (looks_fst _ _) fun b => ite_fst ?_ ?_
  · erase
  · refine T.bind_fst (fun st => elems_fst h _ st) fun _ => T.bind_fst (expectC_fst _ _) fun _ => ?_
    erase

theorem members_fst {pt : T Unit} {pv : P Unit} (h : ∀ st, (pt st).1 = pv st) (n) :
    ∀ st, (membersLoopT pt n st).1 = membersLoop pv n st := by
  induction n with
  | zero => intro st; rfl
  | succ n ih =>
    unfold membersLoopT membersLoop
    refine T.bind_fst (string_fst _) fun b => ?_
    have tail : ∀ u : Unit, ∀ st, ((do
        skipWsT
        expectCT 58 .colon
        pt
        skipWsT
        if ← haveCT 44 then membersLoopT pt n else pure () : T Unit) st).1 = (do
        skipWs
        expectC 58 .colon
        pv
        skipWs
        if ← haveC 44 then membersLoop pv n else pure () : P Unit) st := by
      intro _
      refine T.bind_fst (looks_fst _ _) fun _ => T.bind_fst (expectC_fst _ _) fun _ => T.bind_fst h fun _ =>
        T.bind_fst (looks_fst _ _) fun _ => T.bind_fst (looks_fst _ _) fun b => ite_fst ih ?_
      erase
    refine ite_fst ?_ ?_
    · exact tail ()
    · exact T.bind_fst (looks_fst _ _) tail

theorem object_fst {pt : T Unit} {pv : P Unit} (h : ∀ st, (pt st).1 = pv st) : ∀ st, (parseObjectT pt st).1 = parseObject pv st := by
  unfold parseObjectT parseObject
  refine T.bind_fst (looks_fst _ _) fun _ => T.bind_fst (looks_fst _ _) fun b => ite_fst ?_ (pure_fst _)
  refine T.bind_fst (looks_fst _ _) fun _ => T.bind_fst (looks_fst _ _) fun _ => T.bind_fst (looks_fst _ _) fun b => ite_fst ?_ ?_
  · erase
  · refine T.bind_fst (fun st => members_fst h _ st) fun _ => T.bind_fst (expectC_fst _ _) fun _ => ?_
    erase

/-- Without the count it is the parser. -/
theorem value_fst (L) (n) : ∀ st, (parseValueT L n st).1 = parseValue L n st := by
  induction n with
  | zero => intro st; rfl
  | succ n ih =>
    unfold parseValueT parseValue
    refine T.bind_fst (object_fst ih) fun b => ite_fst (pure_fst _) ?_
    refine T.bind_fst (array_fst ih) fun b => ite_fst (pure_fst _) ?_
    refine T.bind_fst (string_fst _) fun b => ite_fst (pure_fst _) ?_
    refine T.bind_fst (boolean_fst _) fun b => ite_fst (pure_fst _) ?_
    refine T.bind_fst number_fst fun b => ite_fst (pure_fst _) ?_
    exact looks_fst _ _

/-! ### The count -/

/-- `R` holds between the result (`none`: error), the number of characters consumed and the count. -/
def Q {α : Type} (t : T α) (R : Option α → Nat → Nat → Prop) : Prop :=
  ∀ st, match (t st).1 with
    | .ok a st' => ∃ c, st.it.length = st'.it.length + c ∧ R (some a) c (t st).2
    | .err _ st' => ∃ c, st.it.length = st'.it.length + c ∧ R none c (t st).2
    | _ => True

theorem Q.bind {α β : Type} {x : T α} {f : α → T β} {R : Option α → Nat → Nat → Prop} {S : α → Option β → Nat → Nat → Prop}
    {U : Option β → Nat → Nat → Prop} (hx : Q x R) (hf : ∀ a, Q (f a) (S a))
    (ho : ∀ a c k o c' k', R (some a) c k → S a o c' k' → U o (c + c') (k + k')) (he : ∀ c k, R none c k → U none c k) :
    Q (x >>= f) U := by
  intro st
  have h1 := hx st
  show match (T.bind x f st).1 with
    | .ok a st' => ∃ c, st.it.length = st'.it.length + c ∧ U (some a) c (T.bind x f st).2
    | .err _ st' => ∃ c, st.it.length = st'.it.length + c ∧ U none c (T.bind x f st).2
    | _ => True
  unfold T.bind
  rcases hr : x st with ⟨r, k⟩
  rw [hr] at h1
  cases r with
  | ok a st' =>
    obtain ⟨c, e, h1⟩ := h1
    have h2 := hf a st'
    rcases hs : f a st' with ⟨r, k'⟩
    rw [hs] at h2
    simp only [hs]
    cases r with
    | ok b st'' =>
      obtain ⟨c', e', h2⟩ := h2
      exact ⟨c + c', by simp only at *; omega, ho _ _ _ _ _ _ h1 h2⟩
    | err b st'' =>
      obtain ⟨c', e', h2⟩ := h2
      exact ⟨c + c', by simp only at *; omega, ho _ _ _ _ _ _ h1 h2⟩
    | ub u => trivial
    | diverge => trivial
  | err e st' =>
    obtain ⟨c, e, h1⟩ := h1
    exact ⟨c, e, he _ _ h1⟩
  | ub u => trivial
  | diverge => trivial

theorem Q.mono {α : Type} {x : T α} {R S : Option α → Nat → Nat → Prop} (hx : Q x R) (h : ∀ o c k, R o c k → S o c k) : Q x S := by
  intro st
  have h1 := hx st
  cases hr : (x st).1 <;> simp only [hr] at h1 ⊢
  · obtain ⟨c, e, h1⟩ := h1; exact ⟨c, e, h _ _ _ h1⟩
  · obtain ⟨c, e, h1⟩ := h1; exact ⟨c, e, h _ _ _ h1⟩

theorem Q.ite {α : Type} {b : Prop} [Decidable b] {x y : T α} {R : Option α → Nat → Nat → Prop} (h : b → Q x R) (h' : ¬ b → Q y R) :
    Q (if b then x else y) R := by
  split <;> rename_i hb
  · exact h hb
  · exact h' hb

theorem Q.pure {α : Type} (a : α) : Q (Pure.pure a : T α) (fun o c k => o = some a ∧ c = 0 ∧ k = 0) := by
  intro st; exact ⟨0, rfl, rfl, rfl, rfl⟩
theorem Q.error {α : Type} (e : PErr) : Q (errorT e : T α) (fun o c k => o = none ∧ c = 0 ∧ k = 0) := by
  intro st; exact ⟨0, rfl, rfl, rfl, rfl⟩
theorem Q.emit (e : Ev) : Q (emitT e) (fun o c k => o = some () ∧ c = 0 ∧ k = 0) := by
  intro st; exact ⟨0, rfl, rfl, rfl, rfl⟩
theorem Q.haveC (ch : UInt8) : Q (haveCT ch) (fun o c k => k = 1 ∧ (o = some true ∧ c = 1 ∨ o = some false ∧ c = 0)) := by
  intro st
  unfold haveCT looks Json.haveC
  cases h : st.it with
  | nil =>
    by_cases hc : ch = 0
    · simp [hc]
    · simp [hc, h]
  | cons x xs =>
    by_cases hc : x = ch
    · simp [hc]
    · simp [hc, h]
theorem Q.expectC (ch : UInt8) (e) : Q (expectCT ch e) (fun o c k => k = 1 ∧ (o = some () ∧ c = 1 ∨ o = none ∧ c = 0)) := by
  unfold expectCT
  refine Q.bind (S := fun b o c k => c = 0 ∧ k = 0 ∧ (b = true ∧ o = some () ∨ b = false ∧ o = none)) (Q.haveC ch) (fun b => ?_) ?_ ?_
  · cases b
    · exact (Q.error e).mono (by grind)
    · exact (Q.pure ()).mono (by grind)
  · grind
  · grind

theorem dropWs_looks (it : Bytes) : ∃ c, it.length = (dropWs it).length + c ∧ c + 4 ≤ wsLooks it ∧ wsLooks it ≤ 4 * c + 4 := by
  induction it with
  | nil => exact ⟨0, by simp [dropWs, wsLooks]⟩
  | cons x xs ih =>
    obtain ⟨c, e, h1, h2⟩ := ih
    by_cases hw : isWs x
    · refine ⟨c + 1, ?_⟩
      simp only [dropWs, hw, if_true, List.length_cons, wsLooks]
      simp only [isWs, Bool.or_eq_true, decide_eq_true_eq] at hw
      grind
    · refine ⟨0, ?_⟩
      simp only [dropWs, hw, wsLooks]
      simp only [isWs, Bool.or_eq_true, decide_eq_true_eq, not_or] at hw
      simp [hw]

theorem Q.skipWs : Q skipWsT (fun o c k => o = some () ∧ c ≤ k ∧ k ≤ 4 * c + 4) := by
  intro st
  obtain ⟨c, e, h1, h2⟩ := dropWs_looks st.it
  exact ⟨c, e, rfl, by show c ≤ wsLooks st.it; omega, h2⟩

theorem litLooks_le (a b : Nat) (it : Bytes) : ∀ (pat : Bytes) (i : Nat), litLooks a b it i pat ≤ pat.length
  | [], i => by simp [litLooks]
  | c :: pat, i => by
    have := litLooks_le a b it pat (i + 1)
    unfold litLooks
    split
    · simp
    · split
      · simp
      · split <;> simp only [List.length_cons] <;> omega

theorem litLooks_all (a b : Nat) (it : Bytes) : ∀ (pat : Bytes) (i : Nat), haveLitLoop a b it i pat = .ok true →
    litLooks a b it i pat = pat.length
  | [], i => by simp [litLooks]
  | c :: pat, i => by
    have := litLooks_all a b it pat (i + 1)
    unfold litLooks haveLitLoop
    split
    · simp
    · rename_i hb
      cases hp : peek it i with
      | none => simp
      | some x =>
        by_cases hx : c ≠ x
        · simp [hx]
        · simp only [hx, if_false]
          intro h; rw [this h, List.length_cons]; omega

theorem Q.haveLit (a b : Nat) (pat : Bytes) : Q (haveLitT a b pat)
    (fun o c k => k ≤ pat.length ∧ c ≤ k ∧ (o = some true ∨ o = some false ∧ c = 0)) := by
  intro st
  unfold haveLitT looks Json.haveLit
  have h1 := litLooks_le a b st.it pat 0
  cases hr : haveLitLoop a b st.it 0 pat with
  | ok v =>
    cases v
    · exact ⟨0, rfl, h1, Nat.zero_le _, .inr ⟨rfl, rfl⟩⟩
    · by_cases hl : st.it.length < pat.length
      · simp [hl]
      · have := litLooks_all a b st.it pat 0 hr
        simp only [hl, if_false]
        exact ⟨pat.length, by simp; omega, h1, by omega, by simp⟩
  | throw e => simp
  | ub u => simp
  | diverge => simp
  | exit n => simp

theorem Q.expectLit (a b : Nat) (pat : Bytes) (e) : Q (expectLitT a b pat e) (fun o c k => k ≤ pat.length ∧ c ≤ k) := by
  unfold expectLitT
  refine Q.bind (S := fun _ _ c k => c = 0 ∧ k = 0) (Q.haveLit a b pat) (fun b => ?_) ?_ ?_
  · cases b
    · exact (Q.error e).mono (by grind)
    · exact (Q.pure ()).mono (by grind)
  · grind
  · grind

theorem digits_looks (it : Bytes) : ∃ c, it.length = (it.dropWhile isDigit).length + c ∧ digitLooks it = c + 1 := by
  induction it with
  | nil => exact ⟨0, by simp [digitLooks]⟩
  | cons x xs ih =>
    obtain ⟨c, e, h⟩ := ih
    by_cases hd : isDigit x
    · exact ⟨c + 1, by simp [hd, digitLooks, h, e]; omega⟩
    · exact ⟨0, by simp [hd, digitLooks]⟩

theorem Q.intPart (s : Bytes) : Q (parseIntPartT s)
    (fun o c k => k = c + 1 ∧ (∃ t, o = some (true, t) ∧ 1 ≤ c ∨ o = some (false, t) ∧ c = 0)) := by
  intro st
  unfold parseIntPartT looks parseIntPart
  cases h : st.it with
  | nil => simp [h]
  | cons x xs =>
    simp only [h]
    by_cases hp : isPosDigit x
    · obtain ⟨c, e, hc⟩ := digits_looks xs
      simp only [hp, if_true, parseDigits]
      exact ⟨c + 1, by simp [e]; omega, by omega, _, .inl ⟨rfl, by omega⟩⟩
    · simp [h, hp]

theorem codeLooks_le (it : Bytes) : ∀ n i, codeLooks it i n ≤ n
  | 0, i => by simp [codeLooks]
  | n + 1, i => by
    have := codeLooks_le it n (i + 1)
    unfold codeLooks
    split
    · omega
    · split <;> omega

theorem Q.codepoint : Q parseCodepointT (fun _ c k => c ≤ k ∧ k ≤ 8) := by
  intro st
  unfold parseCodepointT looks parseCodepoint
  have h1 := codeLooks_le st.it 4 0
  cases hr : validCode st.it 0 4 with
  | ok v =>
    cases v
    · exact ⟨0, rfl, by simp, by simp [hr]; omega⟩
    · rcases hi : st.it with _ | ⟨a, _ | ⟨b, _ | ⟨c, _ | ⟨d, r⟩⟩⟩⟩ <;> try trivial
      rw [hi] at hr h1
      refine ⟨4, by simp, by simp [hi, hr], by simp [hi, hr]; omega⟩
  | throw e => simp
  | ub u => simp
  | diverge => simp
  | exit n => simp

theorem Q.escape : Q parseEscapeT (fun o c k => c ≤ k ∧ k ≤ 17) := by
  unfold parseEscapeT
  have step : ∀ {ch r} {x : T UInt8} {n : Nat}, Q x (fun o c k => c ≤ k ∧ k ≤ n) →
      Q (do if ← haveCT ch then return r else x) (fun o c k => c ≤ k ∧ k ≤ n + 1) := by
    intro ch r x n hx
    refine Q.bind (S := fun _ o c k => c ≤ k ∧ k ≤ n) (Q.haveC ch) (fun b => Q.ite (fun _ => (Q.pure r).mono ?_) (fun _ => hx)) ?_ ?_
    all_goals grind
  have last : Q (do if ← haveCT 117 then parseCodepointT else errorT .escape) (fun o c k => c ≤ k ∧ k ≤ 9) := by
    refine Q.bind (S := fun _ o c k => c ≤ k ∧ k ≤ 8) (Q.haveC 117)
      (fun b => Q.ite (fun _ => Q.codepoint) (fun _ => (Q.error _).mono ?_)) ?_ ?_
    all_goals grind
  exact step (step (step (step (step (step (step (step last)))))))

theorem Q.takeByte : Q takeByteT (fun o c k => o ≠ none ∧ c = 1 ∧ k = 1) := by
  intro st
  unfold takeByteT looks Json.takeByte
  cases h : st.it <;> simp

theorem Q.atEnd : Q atEndT (fun o c k => o ≠ none ∧ c = 0 ∧ k = 1) := by
  intro st; exact ⟨0, rfl, by simp, rfl, rfl⟩

theorem Q.strLoop (n : Nat) : ∀ s, Q (strLoopT n s) (fun o c k => c ≤ k ∧ k ≤ 20 * c + 3 ∧ (o ≠ none → 1 ≤ c)) := by
  induction n with
  | zero => intro s st; trivial
  | succ n ih =>
    intro s
    unfold strLoopT
    refine Q.bind (S := fun b o c k => b = true ∧ c = 0 ∧ k = 0 ∨ b = false ∧ c ≤ k ∧ k ≤ 20 * c + 2 ∧ (o ≠ none → 1 ≤ c)) (Q.haveC 34)
      (fun b => Q.ite (fun hb => (Q.pure s).mono ?_) (fun hb => ?_)) ?_ ?_
    · grind
    · have tail : Q (do
          if ← haveCT 92 then
            let c ← parseEscapeT
            strLoopT n (s ++ [c])
          else
            let c ← takeByteT
            strLoopT n (s ++ [c])) (fun o c k => c ≤ k ∧ k ≤ 20 * c + 1 ∧ (o ≠ none → 1 ≤ c)) := by
        refine Q.bind (S := fun b o c k => c ≤ k ∧ (o ≠ none → 1 ≤ c) ∧ (b = true ∧ k ≤ 20 * c + 20 ∨ b = false ∧ k ≤ 20 * c)) (Q.haveC 92)
          (fun b => Q.ite (fun hb => ?_) (fun hb => ?_)) ?_ ?_
        · refine Q.bind Q.escape (fun a => ih _) ?_ ?_ <;> grind
        · refine Q.bind Q.takeByte (fun a => ih _) ?_ ?_ <;> grind
        · grind
        · grind
      refine Q.bind (S := fun b o c k => c ≤ k ∧ k ≤ 20 * c + 1 ∧ (o ≠ none → 1 ≤ c)) Q.atEnd
        (fun e => Q.ite (fun he => ?_) (fun he => ?_)) ?_ ?_
      · refine Q.bind (Q.error _) (fun _ => tail) ?_ ?_ <;> grind
      · first | exact tail | (refine Q.bind (Q.pure _) (fun _ => tail) ?_ ?_ <;> grind)
      · grind
      · grind
    · grind
    · grind

/-- The cost of a function that finds something, or fails after a start, or finds nothing. -/
def Cost (n : Nat) (o : Option Bool) (c k : Nat) : Prop :=
  c ≤ k ∧ (o = some false ∧ k ≤ 4 * c + n ∨ o ≠ some false ∧ 1 ≤ c ∧ k ≤ 20 * c)

theorem Q.string (key : Bool) : Q (parseStringT key) (Cost 5) := by
  unfold parseStringT Cost
  refine Q.bind (S := fun _ o c k => c ≤ k ∧ (o = some false ∧ k ≤ 4 * c + 1 ∨ o ≠ some false ∧ 1 ≤ c ∧ k + 16 ≤ 20 * c)) Q.skipWs
    (fun _ => ?_) ?_ ?_
  · refine Q.bind (S := fun b o c k => b = false ∧ o = some false ∧ c = 0 ∧ k = 0 ∨ b = true ∧ c ≤ k ∧ k ≤ 20 * c + 3 ∧ o ≠ some false)
      (Q.haveC 34) (fun b => Q.ite (fun hb => ?_) (fun hb => (Q.pure _).mono ?_)) ?_ ?_
    · refine Q.bind (S := fun _ o c k => o = some true ∧ c = 0 ∧ k = 0) (x := fun st => strLoopT (st.it.length + 1) [] st)
        (R := fun o c k => c ≤ k ∧ k ≤ 20 * c + 3 ∧ (o ≠ none → 1 ≤ c))
        (fun st => Q.strLoop _ _ st) (fun a => ?_) ?_ ?_
      · refine Q.bind (Q.emit _) (fun _ => Q.pure _) ?_ ?_ <;> grind
      · grind
      · grind
    · grind
    · grind
    · grind
  · grind
  · grind

theorem Q.boolean (L) : Q (parseBooleanT L) (Cost 6) := by
  unfold parseBooleanT Cost
  have fin : ∀ (a b pat e ev), pat.length ≤ 4 → Q (do
      expectLitT a b pat e
      emitT ev
      return true) (fun o c k => c ≤ k ∧ k ≤ 4 ∧ o ≠ some false) := by
    intro a b pat e ev hp
    refine Q.bind (S := fun _ o c k => o = some true ∧ c = 0 ∧ k = 0) (Q.expectLit a b pat e) (fun _ => ?_) ?_ ?_
    · refine Q.bind (Q.emit _) (fun _ => Q.pure _) ?_ ?_ <;> grind
    · grind
    · grind
  refine Q.bind (S := fun _ o c k => c ≤ k ∧ (o = some false ∧ c = 0 ∧ k ≤ 2 ∨ o ≠ some false ∧ 1 ≤ c ∧ k ≤ 6)) Q.skipWs
    (fun _ => ?_) ?_ ?_
  · refine Q.bind (S := fun b o c k => c ≤ k ∧ (o ≠ some false ∧ (b = true ∨ 1 ≤ c) ∧ k ≤ 5 ∨ b = false ∧ o = some false ∧ c = 0 ∧ k ≤ 1))
      (Q.haveC 116) (fun b => Q.ite (fun hb => (fin _ _ _ _ _ (by simp)).mono ?_) (fun hb => ?_)) ?_ ?_
    · grind
    · refine Q.bind (S := fun b o c k => c ≤ k ∧ (b = true ∧ o ≠ some false ∧ k ≤ 4 ∨ b = false ∧ o = some false ∧ c = 0 ∧ k = 0))
        (Q.haveC 102) (fun b => Q.ite (fun hb => (fin _ _ _ _ _ (by simp)).mono ?_) (fun hb => (Q.pure _).mono ?_)) ?_ ?_
      all_goals grind
    · grind
    · grind
  · grind
  · grind

theorem Q.number : Q parseNumberT (Cost 7) := by
  unfold parseNumberT Cost
  refine Q.bind (S := fun _ o c k => c ≤ k ∧ (o = some false ∧ c = 0 ∧ k ≤ 3 ∨ o ≠ some false ∧ 1 ≤ c ∧ k ≤ 4 * c)) Q.skipWs
    (fun _ => ?_) ?_ ?_
  · refine Q.bind (S := fun b o c k => c ≤ k ∧ (b = false ∧ o = some false ∧ c = 0 ∧ k ≤ 2 ∨ o ≠ some false ∧ (b = true ∨ 1 ≤ c) ∧ k ≤ c + 2))
      (Q.haveC 45) (fun s => ?_) ?_ ?_
    · refine Q.bind (S := fun b o c k => c ≤ k ∧ (b = true ∧ o = some true ∧ k = 0 ∨
          b = false ∧ (s = false ∧ o = some false ∧ c = 0 ∧ k ≤ 1 ∨ o ≠ some false ∧ (s = true ∨ 1 ≤ c) ∧ k ≤ c + 1)))
        (Q.haveC 48) (fun b => Q.ite (fun hb => ?_) (fun hb => ?_)) ?_ ?_
      · refine Q.bind (Q.emit _) (fun _ => Q.pure _) ?_ ?_ <;> grind
      · refine Q.bind (S := fun p o c k => c = 0 ∧ k = 0 ∧ (p.1 = true ∧ o = some true ∨ p.1 = false ∧ (s = false ∧ o = some false ∨
            s = true ∧ o = none)))
          (Q.intPart _) (fun p => ?_) ?_ ?_
        · obtain ⟨ok, t⟩ := p
          refine Q.ite (fun hb => ?_) (fun hb => ?_)
          · refine Q.bind (Q.emit _) (fun _ => Q.pure _) ?_ ?_ <;> grind
          · refine Q.ite (fun hs => ?_) (fun hs => ?_)
            · refine Q.bind (Q.error _) (fun _ => Q.pure _) ?_ ?_ <;> grind
            · first | (refine (Q.pure _).mono ?_; grind) | (refine Q.bind (Q.pure _) (fun _ => Q.pure _) ?_ ?_ <;> grind)
        · grind
        · grind
      · grind
      · grind
    · grind
    · grind
  · grind
  · grind

/-- The cost of a value. -/
def CostV (_ : Option Unit) (c k : Nat) : Prop := c ≤ k ∧ k ≤ 64 * c + 32

theorem Q.elems {pt : T Unit} (h : Q pt CostV) (n : Nat) : Q (elemsLoopT pt n) (fun _ c k => c ≤ k ∧ k ≤ 64 * c + 37) := by
  unfold CostV at h
  induction n with
  | zero => intro st; trivial
  | succ n ih =>
    unfold elemsLoopT
    refine Q.bind (S := fun _ o c k => c ≤ k ∧ k ≤ 64 * c + 5) h (fun _ => ?_) ?_ ?_
    · refine Q.bind (S := fun _ o c k => c ≤ k ∧ k ≤ 64 * c + 1) Q.skipWs (fun _ => ?_) ?_ ?_
      · refine Q.bind (S := fun b o c k => c ≤ k ∧ (b = false ∧ c = 0 ∧ k = 0 ∨ b = true ∧ k ≤ 64 * c + 37)) (Q.haveC 44)
          (fun b => Q.ite (fun hb => ih.mono ?_) (fun hb => (Q.pure _).mono ?_)) ?_ ?_
        all_goals grind
      · grind
      · grind
    · grind
    · grind

theorem Q.members {pt : T Unit} (h : Q pt CostV) (n : Nat) : Q (membersLoopT pt n) (fun _ c k => c ≤ k ∧ k ≤ 64 * c + 37) := by
  unfold CostV at h
  induction n with
  | zero => intro st; trivial
  | succ n ih =>
    have t1 : Q (do
        skipWsT
        if ← haveCT 44 then membersLoopT pt n else Pure.pure ()) (fun _ c k => c ≤ k ∧ k ≤ 64 * c + 5) := by
      refine Q.bind (S := fun _ o c k => c ≤ k ∧ k ≤ 64 * c + 1) Q.skipWs (fun _ => ?_) ?_ ?_
      · refine Q.bind (S := fun b o c k => c ≤ k ∧ (b = false ∧ c = 0 ∧ k = 0 ∨ b = true ∧ k ≤ 64 * c + 37)) (Q.haveC 44)
          (fun b => Q.ite (fun hb => ih.mono ?_) (fun hb => (Q.pure _).mono ?_)) ?_ ?_
        all_goals grind
      · grind
      · grind
    have t2 : Q (do
        skipWsT
        expectCT 58 .colon
        pt
        skipWsT
        if ← haveCT 44 then membersLoopT pt n else Pure.pure ()) (fun _ c k => c ≤ k ∧ k ≤ 64 * c + 5) := by
      refine Q.bind (S := fun _ o c k => c ≤ k ∧ k ≤ 64 * c + 1) Q.skipWs (fun _ => ?_) ?_ ?_
      · refine Q.bind (S := fun _ o c k => c ≤ k ∧ k ≤ 64 * c + 37) (Q.expectC 58 _) (fun _ => ?_) ?_ ?_
        · refine Q.bind (S := fun _ o c k => c ≤ k ∧ k ≤ 64 * c + 5) h (fun _ => t1) ?_ ?_ <;> grind
        · grind
        · grind
      · grind
      · grind
    unfold membersLoopT
    refine Q.bind (S := fun _ o c k => c ≤ k ∧ k ≤ 64 * c + 5) (Q.string true) (fun b => ?_) ?_ ?_
    · refine Q.ite (fun hb => ?_) (fun hb => ?_)
      · exact t2
      · refine Q.bind (Q.error _) (fun _ => t2) ?_ ?_ <;> grind
    · unfold Cost; grind
    · unfold Cost; grind

/-- The cost of arrays and objects. -/
def CostB (o : Option Bool) (c k : Nat) : Prop :=
  c ≤ k ∧ (o = some false ∧ k ≤ 4 * c + 5 ∨ o ≠ some false ∧ k ≤ 64 * c)

theorem Q.array {pt : T Unit} (h : Q pt CostV) : Q (parseArrayT pt) CostB := by
  unfold parseArrayT CostB
  refine Q.bind (S := fun _ o c k => c ≤ k ∧ (o = some false ∧ k ≤ 4 * c + 1 ∨ o ≠ some false ∧ k + 20 ≤ 64 * c)) Q.skipWs
    (fun _ => ?_) ?_ ?_
  · refine Q.bind (S := fun b o c k => b = false ∧ o = some false ∧ c = 0 ∧ k = 0 ∨ b = true ∧ c ≤ k ∧ o ≠ some false ∧ k ≤ 64 * c + 43)
      (Q.haveC 91) (fun b => Q.ite (fun hb => ?_) (fun hb => (Q.pure _).mono ?_)) ?_ ?_
    · refine Q.bind (S := fun _ o c k => c ≤ k ∧ o ≠ some false ∧ k ≤ 64 * c + 43) (Q.emit _) (fun _ => ?_) ?_ ?_
      · refine Q.bind (S := fun _ o c k => c ≤ k ∧ o ≠ some false ∧ k ≤ 64 * c + 39) Q.skipWs (fun _ => ?_) ?_ ?_
        · refine Q.bind (S := fun _ o c k => c ≤ k ∧ o ≠ some false ∧ k ≤ 64 * c + 38) (Q.haveC 93)
            (fun b => Q.ite (fun hb => ?_) (fun hb => ?_)) ?_ ?_
          · refine Q.bind (Q.emit _) (fun _ => Q.pure _) ?_ ?_ <;> grind
          · refine Q.bind (S := fun _ o c k => c ≤ k ∧ o ≠ some false ∧ k ≤ 1) (x := fun st => elemsLoopT pt (st.it.length + 1) st)
              (R := fun _ c k => c ≤ k ∧ k ≤ 64 * c + 37)
              (fun st => Q.elems h _ st) (fun _ => ?_) ?_ ?_
            · refine Q.bind (S := fun _ o c k => c = 0 ∧ o ≠ some false ∧ k = 0) (Q.expectC 93 _) (fun _ => ?_) ?_ ?_
              · refine Q.bind (Q.emit _) (fun _ => Q.pure _) ?_ ?_ <;> grind
              · grind
              · grind
            · grind
            · grind
          · grind
          · grind
        · grind
        · grind
      · grind
      · grind
    · grind
    · grind
    · grind
  · grind
  · grind

theorem Q.object {pt : T Unit} (h : Q pt CostV) : Q (parseObjectT pt) CostB := by
  unfold parseObjectT CostB
  refine Q.bind (S := fun _ o c k => c ≤ k ∧ (o = some false ∧ k ≤ 4 * c + 1 ∨ o ≠ some false ∧ k + 20 ≤ 64 * c)) Q.skipWs
    (fun _ => ?_) ?_ ?_
  · refine Q.bind (S := fun b o c k => b = false ∧ o = some false ∧ c = 0 ∧ k = 0 ∨ b = true ∧ c ≤ k ∧ o ≠ some false ∧ k ≤ 64 * c + 43)
      (Q.haveC 123) (fun b => Q.ite (fun hb => ?_) (fun hb => (Q.pure _).mono ?_)) ?_ ?_
    · refine Q.bind (S := fun _ o c k => c ≤ k ∧ o ≠ some false ∧ k ≤ 64 * c + 43) (Q.emit _) (fun _ => ?_) ?_ ?_
      · refine Q.bind (S := fun _ o c k => c ≤ k ∧ o ≠ some false ∧ k ≤ 64 * c + 39) Q.skipWs (fun _ => ?_) ?_ ?_
        · refine Q.bind (S := fun _ o c k => c ≤ k ∧ o ≠ some false ∧ k ≤ 64 * c + 38) (Q.haveC 125)
            (fun b => Q.ite (fun hb => ?_) (fun hb => ?_)) ?_ ?_
          · refine Q.bind (Q.emit _) (fun _ => Q.pure _) ?_ ?_ <;> grind
          · refine Q.bind (S := fun _ o c k => c ≤ k ∧ o ≠ some false ∧ k ≤ 1) (x := fun st => membersLoopT pt (st.it.length + 1) st)
              (R := fun _ c k => c ≤ k ∧ k ≤ 64 * c + 37)
              (fun st => Q.members h _ st) (fun _ => ?_) ?_ ?_
            · refine Q.bind (S := fun _ o c k => c = 0 ∧ o ≠ some false ∧ k = 0) (Q.expectC 125 _) (fun _ => ?_) ?_ ?_
              · refine Q.bind (Q.emit _) (fun _ => Q.pure _) ?_ ?_ <;> grind
              · grind
              · grind
            · grind
            · grind
          · grind
          · grind
        · grind
        · grind
      · grind
      · grind
    · grind
    · grind
    · grind
  · grind
  · grind

theorem Q.value (L) (n : Nat) : Q (parseValueT L n) CostV := by
  induction n with
  | zero => intro st; trivial
  | succ n ih =>
    unfold parseValueT CostV
    refine Q.bind (S := fun _ o c k => c ≤ k ∧ k ≤ 64 * c + 27) (Q.object ih) (fun b => Q.ite (fun hb => (Q.pure _).mono ?_) (fun hb => ?_)) ?_ ?_
    · grind
    · refine Q.bind (S := fun _ o c k => c ≤ k ∧ k ≤ 64 * c + 20) (Q.array ih)
        (fun b => Q.ite (fun hb => (Q.pure _).mono ?_) (fun hb => ?_)) ?_ ?_
      · grind
      · refine Q.bind (S := fun _ o c k => c ≤ k ∧ k ≤ 64 * c + 15) (Q.string false)
          (fun b => Q.ite (fun hb => (Q.pure _).mono ?_) (fun hb => ?_)) ?_ ?_
        · grind
        · refine Q.bind (S := fun _ o c k => c ≤ k ∧ k ≤ 64 * c + 8) (Q.boolean L)
            (fun b => Q.ite (fun hb => (Q.pure _).mono ?_) (fun hb => ?_)) ?_ ?_
          · grind
          · refine Q.bind (S := fun _ o c k => c = 0 ∧ k = 0) Q.number
              (fun b => Q.ite (fun hb => (Q.pure _).mono ?_) (fun hb => (Q.error _).mono ?_)) ?_ ?_
            all_goals (try unfold Cost) <;> grind
          · unfold Cost; grind
          · unfold Cost; grind
        · unfold Cost; grind
        · unfold Cost; grind
      · unfold CostB; grind
      · unfold CostB; grind
    · unfold CostB; grind
    · unfold CostB; grind

theorem scan_cost {L : Layout} {s : Bytes} {st : PState} (h : (scanT L s).1 = .ok () st ∨ ∃ e, (scanT L s).1 = .err e st) :
    s.length - st.it.length ≤ (scanT L s).2 ∧ (scanT L s).2 ≤ 64 * (s.length - st.it.length) + 32 := by
  have hq := Q.value L (s.length + 1) ⟨s, []⟩
  unfold scanT at h ⊢
  rcases h with h | ⟨e, h⟩
  all_goals
    rw [h] at hq
    obtain ⟨c, e, h, h'⟩ := hq
    simp only at e
    omega

end Json
end Eni
