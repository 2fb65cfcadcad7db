import Verif.Model.HashLoop
/-!
# The loops of the string hash functions
-/
namespace Eni.Hasher

theorem loop_endless {step : UInt32 → Loc → UInt8 → Loc} {s : List UInt8} (hs : 2 ^ 32 ≤ s.length) {i : UInt32} {st r : Loc} : ¬ Loop step s i st r := by
  intro h
  induction h with
  | @done i st h =>
    have := i.toNat_lt
    omega
  | next _ _ _ ih => exact ih

/-- The loop as a recursion over the rest of the text. -/
def over (step : UInt32 → Loc → UInt8 → Loc) : UInt32 → Loc → List UInt8 → Loc
  | _, st, [] => st
  | i, st, c :: cs => over step (i + 1) (step i st c) cs

theorem succ_toNat {i : UInt32} {n : Nat} (h : i.toNat < n) (hn : n < 2 ^ 32) : (i + 1).toNat = i.toNat + 1 := by
  rw [UInt32.toNat_add]
  simp only [UInt32.reduceToNat]
  omega

theorem loop_ends {step : UInt32 → Loc → UInt8 → Loc} {s : List UInt8} (hs : s.length < 2 ^ 32) : ∀ (k : Nat) {i : UInt32} {st : Loc}, s.length - i.toNat = k →
    Loop step s i st (over step i st (s.drop i.toNat)) := by
  intro k
  induction k with
  | zero =>
    intro i st h
    rw [List.drop_eq_nil_of_le (by omega)]
    exact .done (by omega)
  | succ k ih =>
    intro i st h
    have hi : i.toNat < s.length := by omega
    rw [List.drop_eq_getElem_cons hi, over, ← succ_toNat hi hs]
    exact .next hi (List.getElem?_eq_getElem hi) (ih (by rw [succ_toNat hi hs]; omega))

theorem loop_unique {step : UInt32 → Loc → UInt8 → Loc} {s : List UInt8} {i : UInt32} {st r r' : Loc} (h : Loop step s i st r) : Loop step s i st r' → r = r' := by
  induction h with
  | done h =>
    intro h'
    cases h' with
    | done => rfl
    | next h'' => exact absurd h'' h
  | next h hc _ ih =>
    intro h'
    cases h' with
    | done h'' => exact absurd h h''
    | next _ hc' h'' =>
      rw [hc] at hc'
      cases hc'
      exact ih h''

/-- Bodies that do not look at the index. -/
theorem over_fold {step : UInt32 → Loc → UInt8 → Loc} {f : UInt32 → UInt8 → UInt32} (hf : ∀ i st c, step i st c = ⟨f st.h c, st.a⟩) : ∀ (s : List UInt8) (i : UInt32) (st : Loc),
    (over step i st s).h = s.foldl f st.h := by
  intro s
  induction s with
  | nil => intro i st; rfl
  | cons c s ih =>
    intro i st
    rw [over, ih, hf]
    rfl

theorem over_rs : ∀ (s : List UInt8) (i : UInt32) (st : Loc),
    (over (body .rs) i st s).h = (s.foldl (fun (st : UInt32 × UInt32) c => (st.1 * st.2 + sx c, st.2 * 378551)) (st.h, st.a)).1 := by
  intro s
  induction s with
  | nil => intro i st; rfl
  | cons c s ih =>
    intro i st
    rw [over, ih]
    rfl

theorem parity (i : UInt32) : (i &&& 1 = 0) ↔ i.toNat % 2 = 0 := by
  rw [← UInt32.toNat_inj, UInt32.toNat_and]
  simp only [UInt32.reduceToNat]
  rw [show (1 : Nat) = 2 ^ 1 - 1 from rfl, Nat.and_two_pow_sub_one_eq_mod]

theorem parity_succ (i : UInt32) : (i + 1 &&& 1 = 0) ↔ ¬ (i &&& 1 = 0) := by
  rw [parity, parity, UInt32.toNat_add]
  simp only [UInt32.reduceToNat]
  omega

theorem over_ap : ∀ (s : List UInt8) (i : UInt32) (st : Loc),
    (over (body .ap) i st s).h = (s.foldl (fun (st : UInt32 × Bool) c =>
    (if st.2 then st.1 ^^^ ((st.1 <<< 7) ^^^ (sx c * (st.1 >>> 3)))
     else st.1 ^^^ (~~~((st.1 <<< 11) + (sx c ^^^ (st.1 >>> 5)))), !st.2)) (st.h, decide (i &&& 1 = 0))).1 := by
  intro s
  induction s with
  | nil => intro i st; rfl
  | cons c s ih =>
    intro i st
    rw [over, ih, List.foldl_cons]
    have hp : decide (i + 1 &&& 1 = 0) = !decide (i &&& 1 = 0) := by simp [parity_succ]
    rw [hp]
    simp only [body, decide_eq_true_eq]
    by_cases h : i &&& 1 = 0 <;> simp only [h, if_true, if_false]

theorem over_hash (fn : Fn) (s : List UInt8) : (over (body fn) 0 (start s fn) s).h = hashOf fn s := by
  cases fn with
  | rs => exact over_rs s 0 _
  | ap => exact over_ap s 0 _
  | js => exact over_fold (f := fun h c => (body .js 0 ⟨h, 0⟩ c).h) (fun _ _ _ => rfl) s 0 _
  | pjw => exact over_fold (f := fun h c => (body .pjw 0 ⟨h, 0⟩ c).h) (fun _ _ _ => rfl) s 0 _
  | elf => exact over_fold (f := fun h c => (body .elf 0 ⟨h, 0⟩ c).h) (fun _ _ _ => rfl) s 0 _
  | bkdr => exact over_fold (f := fun h c => (body .bkdr 0 ⟨h, 0⟩ c).h) (fun _ _ _ => rfl) s 0 _
  | sdbm => exact over_fold (f := fun h c => (body .sdbm 0 ⟨h, 0⟩ c).h) (fun _ _ _ => rfl) s 0 _
  | djb => exact over_fold (f := fun h c => (body .djb 0 ⟨h, 0⟩ c).h) (fun _ _ _ => rfl) s 0 _
  | dek => exact over_fold (f := fun h c => (body .dek 0 ⟨h, 0⟩ c).h) (fun _ _ _ => rfl) s 0 _
  | bp => exact over_fold (f := fun h c => (body .bp 0 ⟨h, 0⟩ c).h) (fun _ _ _ => rfl) s 0 _
  | fnv => exact over_fold (f := fun h c => (body .fnv 0 ⟨h, 0⟩ c).h) (fun _ _ _ => rfl) s 0 _

end Eni.Hasher
