import Verif.Proofs.JsonLex
import Verif.Spec.Tokens
/-!
# A text has one token list
-/
namespace Eni.Spec
open JsonTool (Tok Kind)

/-- `x` does not begin with a character of the class. -/
def Stops (P : UInt8 → Prop) (x : Bytes) : Prop := ∀ c r, x = c :: r → ¬ P c

theorem span_split {P : UInt8 → Prop} {w w' x x' : Bytes} (h : ∀ c ∈ w, P c) (h' : ∀ c ∈ w', P c) (hx : Stops P x) (hx' : Stops P x')
    (e : w ++ x = w' ++ x') : w = w' ∧ x = x' := by
  induction w generalizing w' with
  | nil =>
    cases w' with
    | nil => exact ⟨rfl, e⟩
    | cons c w' => exact absurd (h' c (by simp)) (hx _ _ e)
  | cons c w ih =>
    cases w' with
    | nil => exact absurd (h c (by simp)) (hx' _ _ e.symm)
    | cons c' w' =>
      obtain ⟨rfl, e2⟩ := List.cons.inj e
      obtain ⟨rfl, rfl⟩ := ih (fun c hc => h c (by simp [hc])) (fun c hc => h' c (by simp [hc])) e2
      exact ⟨rfl, rfl⟩

theorem raw_split {b b' r r' : Bytes} (h : RawBody b) (h' : RawBody b') (e : b ++ 34 :: r = b' ++ 34 :: r') : b = b' ∧ r = r' := by
  induction h generalizing b' with
  | nil =>
    cases h' with
    | nil => exact ⟨rfl, (List.cons.inj e).2⟩
    | raw h1 _ _ => exact absurd (List.cons.inj e).1.symm h1
    | esc _ => exact absurd (List.cons.inj e).1 (by decide)
  | raw h1 h2 _ ih =>
    cases h' with
    | nil => exact absurd (List.cons.inj e).1 h1
    | raw _ _ h3 =>
      obtain ⟨rfl, e2⟩ := List.cons.inj e
      obtain ⟨rfl, rfl⟩ := ih h3 e2
      exact ⟨rfl, rfl⟩
    | esc _ => exact absurd (List.cons.inj e).1 h2
  | esc _ ih =>
    cases h' with
    | nil => exact absurd (List.cons.inj e).1 (by decide)
    | raw _ h2 _ => exact absurd (List.cons.inj e).1.symm h2
    | esc h3 =>
      obtain ⟨_, e2⟩ := List.cons.inj e
      obtain ⟨rfl, e3⟩ := List.cons.inj e2
      obtain ⟨rfl, rfl⟩ := ih h3 e3
      exact ⟨rfl, rfl⟩

/-- White space -/
def Blank (c : UInt8) : Prop := c = 32 ∨ c = 9 ∨ c = 10 ∨ c = 13

instance : DecidablePred Blank := fun c => by unfold Blank; infer_instance

theorem prim_class (c : UInt8) : PrimChar c → ¬ Blank c ∧ c ≠ 93 ∧ c ≠ 125 ∧ c ≠ 44 ∧ c ≠ 34 ∧ c ≠ 91 ∧ c ≠ 123 ∧ c ≠ 58 := by
  revert c
  exact Json.forall_byte (by decide +kernel)

theorem blank_not_prim (c : UInt8) (h : Blank c) : ¬ PrimChar c := fun h' => (prim_class c h').1 h

/-- A value begins with a character that is neither white space nor a separator. -/
theorem tval_head {off t top sub} (h : TVal off t top sub) : ∃ c r, t = c :: r ∧ ¬ Blank c ∧ c ≠ 93 ∧ c ≠ 125 ∧ c ≠ 44 := by
  cases h with
  | str _ => exact ⟨34, _, rfl, by decide⟩
  | prim h1 h2 =>
    cases t with
    | nil => exact absurd rfl h1
    | cons c r =>
      have := prim_class c (h2 c (by simp))
      exact ⟨c, r, rfl, this.1, this.2.1, this.2.2.1, this.2.2.2.1⟩
  | arr _ => exact ⟨91, _, rfl, by decide⟩
  | obj _ => exact ⟨123, _, rfl, by decide⟩

theorem stops_cons {P : UInt8 → Prop} {c : UInt8} {r : Bytes} (h : ¬ P c) : Stops P (c :: r) := by
  rintro c' r' e
  cases e
  exact h

/-- After a value: white space and a separator. -/
theorem stops_ws {w : Bytes} {c : UInt8} {r : Bytes} (hw : WS w) (h : ¬ PrimChar c) : Stops PrimChar (w ++ c :: r) := by
  cases w with
  | nil => exact stops_cons h
  | cons a w => exact stops_cons (blank_not_prim a (hw a (by simp)))

theorem stops_tval {off t top sub} (h : TVal off t top sub) (r : Bytes) : Stops Blank (t ++ r) := by
  obtain ⟨c, s, rfl, hc, _⟩ := tval_head h
  exact stops_cons hc

theorem tval_ne {off t top sub} (h : TVal off t top sub) {r s : Bytes} {c : UInt8} (e : t ++ r = c :: s) (hc : c = 93 ∨ c = 125 ∨ c = 44) : False := by
  obtain ⟨d, s, rfl, _, h1, h2, h3⟩ := tval_head h
  obtain ⟨rfl, _⟩ := List.cons.inj e
  rcases hc with hc | hc | hc <;> contradiction

mutual
theorem tval_unique {off : Nat} {t : Bytes} {top : Tok} {sub : List Tok} : TVal off t top sub → ∀ (t' : Bytes) (top' : Tok) (sub' : List Tok) (r r' : Bytes), TVal off t' top' sub' →
    t ++ r = t' ++ r' → Stops PrimChar r → Stops PrimChar r' → t = t' ∧ top = top' ∧ sub = sub' ∧ r = r'
  | .str hb => fun t' top' sub' r r' h' e hr hr' => by
    cases h' with
    | str hb' =>
      simp only [List.cons_append, List.append_assoc, List.cons.injEq, true_and, List.nil_append] at e
      obtain ⟨rfl, rfl⟩ := raw_split hb hb' e
      exact ⟨rfl, rfl, rfl, rfl⟩
    | prim h1 h2 =>
      cases t' with
      | nil => exact absurd rfl h1
      | cons c t' => exact absurd (List.cons.inj e).1.symm (prim_class c (h2 c (by simp))).2.2.2.2.1
    | arr _ => exact absurd (List.cons.inj e).1 (by decide)
    | obj _ => exact absurd (List.cons.inj e).1 (by decide)
  | .prim h1 h2 => fun t' top' sub' r r' h' e hr hr' => by
    cases h' with
    | prim h1' h2' =>
      obtain ⟨rfl, rfl⟩ := span_split h2 h2' hr hr' e
      exact ⟨rfl, rfl, rfl, rfl⟩
    | str _ =>
      cases t with
      | nil => exact absurd rfl h1
      | cons c t => exact absurd (List.cons.inj e).1 (prim_class c (h2 c (by simp))).2.2.2.2.1
    | arr _ =>
      cases t with
      | nil => exact absurd rfl h1
      | cons c t => exact absurd (List.cons.inj e).1 (prim_class c (h2 c (by simp))).2.2.2.2.2.1
    | obj _ =>
      cases t with
      | nil => exact absurd rfl h1
      | cons c t => exact absurd (List.cons.inj e).1 (prim_class c (h2 c (by simp))).2.2.2.2.2.2.1
  | .arr hc => fun t' top' sub' r r' h' e hr hr' => by
    cases h' with
    | arr hc' =>
      simp only [List.cons_append, List.append_assoc, List.cons.injEq, true_and, List.nil_append] at e
      obtain ⟨rfl, rfl, rfl⟩ := telems_unique hc _ _ _ _ hc' e
      exact ⟨rfl, rfl, rfl, rfl⟩
    | prim h1 h2 =>
      cases t' with
      | nil => exact absurd rfl h1
      | cons c t' => exact absurd (List.cons.inj e).1.symm (prim_class c (h2 c (by simp))).2.2.2.2.2.1
    | str _ => exact absurd (List.cons.inj e).1 (by decide)
    | obj _ => exact absurd (List.cons.inj e).1 (by decide)
  | .obj hc => fun t' top' sub' r r' h' e hr hr' => by
    cases h' with
    | obj hc' =>
      simp only [List.cons_append, List.append_assoc, List.cons.injEq, true_and, List.nil_append] at e
      obtain ⟨rfl, rfl, rfl⟩ := tmembers_unique hc _ _ _ _ hc' e
      exact ⟨rfl, rfl, rfl, rfl⟩
    | prim h1 h2 =>
      cases t' with
      | nil => exact absurd rfl h1
      | cons c t' => exact absurd (List.cons.inj e).1.symm (prim_class c (h2 c (by simp))).2.2.2.2.2.2.1
    | str _ => exact absurd (List.cons.inj e).1 (by decide)
    | arr _ => exact absurd (List.cons.inj e).1 (by decide)
theorem telems_unique {off : Nat} {t : Bytes} {cs : List Child} : TElems off t cs → ∀ (t' : Bytes) (cs' : List Child) (r r' : Bytes), TElems off t' cs' →
    t ++ 93 :: r = t' ++ 93 :: r' → t = t' ∧ cs = cs' ∧ r = r'
  | .none hw => fun t' cs' r r' h' e => by
    cases h' with
    | none hw' =>
      obtain ⟨rfl, e2⟩ := span_split (P := Blank) hw hw' (stops_cons (by decide)) (stops_cons (by decide)) e
      exact ⟨rfl, rfl, (List.cons.inj e2).2⟩
    | one hw' hv _ =>
      simp only [List.append_assoc] at e
      obtain ⟨_, e2⟩ := span_split (P := Blank) hw hw' (stops_cons (by decide)) (stops_tval hv _) e
      exact (tval_ne hv e2.symm (.inl rfl)).elim
    | cons hw' hv _ _ =>
      simp only [List.append_assoc] at e
      obtain ⟨_, e2⟩ := span_split (P := Blank) hw hw' (stops_cons (by decide)) (stops_tval hv _) e
      exact (tval_ne hv e2.symm (.inl rfl)).elim
  | .one hw hv hw1 => fun t' cs' r r' h' e => by
    cases h' with
    | none hw' =>
      simp only [List.append_assoc] at e
      obtain ⟨_, e2⟩ := span_split (P := Blank) hw hw' (stops_tval hv _) (stops_cons (by decide)) e
      exact (tval_ne hv e2 (.inl rfl)).elim
    | one hw' hv' hw1' =>
      simp only [List.append_assoc] at e
      obtain ⟨rfl, e2⟩ := span_split (P := Blank) hw hw' (stops_tval hv _) (stops_tval hv' _) e
      obtain ⟨rfl, rfl, rfl, e3⟩ := tval_unique hv _ _ _ _ _ hv' e2 (stops_ws hw1 (by decide)) (stops_ws hw1' (by decide))
      obtain ⟨rfl, e4⟩ := span_split (P := Blank) hw1 hw1' (stops_cons (by decide)) (stops_cons (by decide)) e3
      exact ⟨rfl, rfl, (List.cons.inj e4).2⟩
    | cons hw' hv' hw1' _ =>
      simp only [List.append_assoc, List.cons_append] at e
      obtain ⟨rfl, e2⟩ := span_split (P := Blank) hw hw' (stops_tval hv _) (stops_tval hv' _) e
      obtain ⟨rfl, rfl, rfl, e3⟩ := tval_unique hv _ _ _ _ _ hv' e2 (stops_ws hw1 (by decide)) (stops_ws hw1' (by decide))
      obtain ⟨rfl, e4⟩ := span_split (P := Blank) hw1 hw1' (stops_cons (by decide)) (stops_cons (by decide)) e3
      exact absurd (List.cons.inj e4).1 (by decide)
  | .cons hw hv hw1 hr => fun t' cs' r r' h' e => by
    cases h' with
    | none hw' =>
      simp only [List.append_assoc] at e
      obtain ⟨_, e2⟩ := span_split (P := Blank) hw hw' (stops_tval hv _) (stops_cons (by decide)) e
      exact (tval_ne hv e2 (.inl rfl)).elim
    | one hw' hv' hw1' =>
      simp only [List.append_assoc, List.cons_append] at e
      obtain ⟨rfl, e2⟩ := span_split (P := Blank) hw hw' (stops_tval hv _) (stops_tval hv' _) e
      obtain ⟨rfl, rfl, rfl, e3⟩ := tval_unique hv _ _ _ _ _ hv' e2 (stops_ws hw1 (by decide)) (stops_ws hw1' (by decide))
      obtain ⟨rfl, e4⟩ := span_split (P := Blank) hw1 hw1' (stops_cons (by decide)) (stops_cons (by decide)) e3
      exact absurd (List.cons.inj e4).1 (by decide)
    | cons hw' hv' hw1' hr' =>
      simp only [List.append_assoc, List.cons_append] at e
      obtain ⟨rfl, e2⟩ := span_split (P := Blank) hw hw' (stops_tval hv _) (stops_tval hv' _) e
      obtain ⟨rfl, rfl, rfl, e3⟩ := tval_unique hv _ _ _ _ _ hv' e2 (stops_ws hw1 (by decide)) (stops_ws hw1' (by decide))
      obtain ⟨rfl, e4⟩ := span_split (P := Blank) hw1 hw1' (stops_cons (by decide)) (stops_cons (by decide)) e3
      obtain ⟨rfl, e5, rfl⟩ := telems_unique hr _ _ _ _ hr' (List.cons.inj e4).2
      rw [e5]
      exact ⟨rfl, rfl, rfl⟩
theorem tmembers_unique {off : Nat} {t : Bytes} {ms : List (Child × Child)} : TMembers off t ms → ∀ (t' : Bytes) (ms' : List (Child × Child)) (r r' : Bytes), TMembers off t' ms' →
    t ++ 125 :: r = t' ++ 125 :: r' → t = t' ∧ ms = ms' ∧ r = r'
  | .none hw => fun t' ms' r r' h' e => by
    cases h' with
    | none hw' =>
      obtain ⟨rfl, e2⟩ := span_split (P := Blank) hw hw' (stops_cons (by decide)) (stops_cons (by decide)) e
      exact ⟨rfl, rfl, (List.cons.inj e2).2⟩
    | one hw' _ _ _ _ _ =>
      simp only [List.append_assoc, List.cons_append] at e
      obtain ⟨_, e2⟩ := span_split (P := Blank) hw hw' (stops_cons (by decide)) (stops_cons (by decide)) e
      exact absurd (List.cons.inj e2).1 (by decide)
    | cons hw' _ _ _ _ _ _ =>
      simp only [List.append_assoc, List.cons_append] at e
      obtain ⟨_, e2⟩ := span_split (P := Blank) hw hw' (stops_cons (by decide)) (stops_cons (by decide)) e
      exact absurd (List.cons.inj e2).1 (by decide)
  | .one hw hb hw1 hw2 hv hw3 => fun t' ms' r r' h' e => by
    cases h' with
    | none hw' =>
      simp only [List.append_assoc, List.cons_append] at e
      obtain ⟨_, e2⟩ := span_split (P := Blank) hw hw' (stops_cons (by decide)) (stops_cons (by decide)) e
      exact absurd (List.cons.inj e2).1 (by decide)
    | one hw' hb' hw1' hw2' hv' hw3' =>
      simp only [List.append_assoc, List.cons_append] at e
      obtain ⟨rfl, e2⟩ := span_split (P := Blank) hw hw' (stops_cons (by decide)) (stops_cons (by decide)) e
      obtain ⟨rfl, e3⟩ := raw_split hb hb' (List.cons.inj e2).2
      obtain ⟨rfl, e4⟩ := span_split (P := Blank) hw1 hw1' (stops_cons (by decide)) (stops_cons (by decide)) e3
      obtain ⟨rfl, e5⟩ := span_split (P := Blank) hw2 hw2' (stops_tval hv _) (stops_tval hv' _) (List.cons.inj e4).2
      obtain ⟨rfl, rfl, rfl, e6⟩ := tval_unique hv _ _ _ _ _ hv' e5 (stops_ws hw3 (by decide)) (stops_ws hw3' (by decide))
      obtain ⟨rfl, e7⟩ := span_split (P := Blank) hw3 hw3' (stops_cons (by decide)) (stops_cons (by decide)) e6
      exact ⟨rfl, rfl, (List.cons.inj e7).2⟩
    | cons hw' hb' hw1' hw2' hv' hw3' _ =>
      simp only [List.append_assoc, List.cons_append] at e
      obtain ⟨rfl, e2⟩ := span_split (P := Blank) hw hw' (stops_cons (by decide)) (stops_cons (by decide)) e
      obtain ⟨rfl, e3⟩ := raw_split hb hb' (List.cons.inj e2).2
      obtain ⟨rfl, e4⟩ := span_split (P := Blank) hw1 hw1' (stops_cons (by decide)) (stops_cons (by decide)) e3
      obtain ⟨rfl, e5⟩ := span_split (P := Blank) hw2 hw2' (stops_tval hv _) (stops_tval hv' _) (List.cons.inj e4).2
      obtain ⟨rfl, rfl, rfl, e6⟩ := tval_unique hv _ _ _ _ _ hv' e5 (stops_ws hw3 (by decide)) (stops_ws hw3' (by decide))
      obtain ⟨rfl, e7⟩ := span_split (P := Blank) hw3 hw3' (stops_cons (by decide)) (stops_cons (by decide)) e6
      exact absurd (List.cons.inj e7).1 (by decide)
  | .cons hw hb hw1 hw2 hv hw3 hr => fun t' ms' r r' h' e => by
    cases h' with
    | none hw' =>
      simp only [List.append_assoc, List.cons_append] at e
      obtain ⟨_, e2⟩ := span_split (P := Blank) hw hw' (stops_cons (by decide)) (stops_cons (by decide)) e
      exact absurd (List.cons.inj e2).1 (by decide)
    | one hw' hb' hw1' hw2' hv' hw3' =>
      simp only [List.append_assoc, List.cons_append] at e
      obtain ⟨rfl, e2⟩ := span_split (P := Blank) hw hw' (stops_cons (by decide)) (stops_cons (by decide)) e
      obtain ⟨rfl, e3⟩ := raw_split hb hb' (List.cons.inj e2).2
      obtain ⟨rfl, e4⟩ := span_split (P := Blank) hw1 hw1' (stops_cons (by decide)) (stops_cons (by decide)) e3
      obtain ⟨rfl, e5⟩ := span_split (P := Blank) hw2 hw2' (stops_tval hv _) (stops_tval hv' _) (List.cons.inj e4).2
      obtain ⟨rfl, rfl, rfl, e6⟩ := tval_unique hv _ _ _ _ _ hv' e5 (stops_ws hw3 (by decide)) (stops_ws hw3' (by decide))
      obtain ⟨rfl, e7⟩ := span_split (P := Blank) hw3 hw3' (stops_cons (by decide)) (stops_cons (by decide)) e6
      exact absurd (List.cons.inj e7).1 (by decide)
    | cons hw' hb' hw1' hw2' hv' hw3' hr' =>
      simp only [List.append_assoc, List.cons_append] at e
      obtain ⟨rfl, e2⟩ := span_split (P := Blank) hw hw' (stops_cons (by decide)) (stops_cons (by decide)) e
      obtain ⟨rfl, e3⟩ := raw_split hb hb' (List.cons.inj e2).2
      obtain ⟨rfl, e4⟩ := span_split (P := Blank) hw1 hw1' (stops_cons (by decide)) (stops_cons (by decide)) e3
      obtain ⟨rfl, e5⟩ := span_split (P := Blank) hw2 hw2' (stops_tval hv _) (stops_tval hv' _) (List.cons.inj e4).2
      obtain ⟨rfl, rfl, rfl, e6⟩ := tval_unique hv _ _ _ _ _ hv' e5 (stops_ws hw3 (by decide)) (stops_ws hw3' (by decide))
      obtain ⟨rfl, e7⟩ := span_split (P := Blank) hw3 hw3' (stops_cons (by decide)) (stops_cons (by decide)) e6
      obtain ⟨rfl, e8, rfl⟩ := tmembers_unique hr _ _ _ _ hr' (List.cons.inj e7).2
      rw [e8]
      exact ⟨rfl, rfl, rfl⟩
end

/-- The token list of a text is unique. -/
theorem tokens_unique {off : Nat} {t : Bytes} {top top' : Tok} {sub sub' : List Tok} (h : TVal off t top sub) (h' : TVal off t top' sub') :
    top = top' ∧ sub = sub' := by
  obtain ⟨_, h1, h2, _⟩ := tval_unique h _ _ _ [] [] h' rfl (by rintro c r ⟨⟩) (by rintro c r ⟨⟩)
  exact ⟨h1, h2⟩

end Eni.Spec
