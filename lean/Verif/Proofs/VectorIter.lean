import Verif.Model.VectorIter
import Verif.Proofs.VectorObs
/-!
# Lemmas about iterators of vectors and ranges of the vector itself
-/
namespace Eni
open Spec
namespace Vec
variable {α : Type} {cfg : Cfg α} {grant : Bool} {v : Vec α} {xs : List α}

theorem room_ge (R : Rep v xs) : v.size ≤ IVec.room v := by
  have h1 := R.size_eq
  have h2 := R.le_alloc
  have h3 := R.cap
  cases hd : v.data with
  | null => rw [hd] at h3; simp [cells] at h3; simp [IVec.room, hd]; omega
  | dangling => exact absurd hd R.nd
  | buf cs => rw [hd] at h3; simp [cells] at h3; simp [IVec.room, hd]; omega

theorem store_one {d : VData α} (hd : d ≠ .dangling) {A C : List (Option α)} {t x : Option α} (h : cells d = A ++ t :: C) :
    ∃ d', store d A.length [x] = .ok d' ∧ d' ≠ .dangling ∧ cells d' = A ++ x :: C := by
  obtain ⟨d', h1, h2, h3⟩ := store_ok hd (a := A) (b := [t]) (c := C) (ys := [x]) (by simpa using h) rfl
  exact ⟨d', h1, h2, by simpa using h3⟩

theorem read_one {d : VData α} (hd : d ≠ .dangling) {A C : List (Option α)} {t : Option α} (h : cells d = A ++ t :: C) :
    readRange d A.length (A.length + 1) = .ok [t] :=
  readRange_ok hd (a := A) (b := [t]) (c := C) (by simpa using h) rfl rfl

/-- the source ends before the destination begins -/
theorem copyFwd_disjoint {S : List (Option α)} : ∀ {A B T C : List (Option α)} {d : VData α}, d ≠ .dangling → T.length = S.length →
    cells d = A ++ (S ++ (B ++ (T ++ C))) →
    ∃ d', copyFwd d A.length (A.length + S.length + B.length) S.length = .ok d' ∧ d' ≠ .dangling ∧ cells d' = A ++ (S ++ (B ++ (S ++ C))) := by
  induction S with
  | nil =>
    intro A B T C d hd hl h
    have : T = [] := List.eq_nil_of_length_eq_zero hl
    subst this
    exact ⟨d, rfl, hd, h⟩
  | cons s S ih =>
    intro A B T C d hd hl h
    cases T with
    | nil => simp at hl
    | cons t T =>
      have hr := read_one hd (A := A) (C := S ++ (B ++ (t :: T ++ C))) (t := s) (by simpa using h)
      obtain ⟨d1, h1, h2, h3⟩ := store_one hd (A := A ++ (s :: S ++ B)) (C := T ++ C) (t := t) (x := s) (by simpa using h)
      obtain ⟨d2, h4, h5, h6⟩ := ih (A := A ++ [s]) (B := B ++ [s]) (T := T) (C := C) (d := d1) h2 (by simpa using hl) (by simpa using h3)
      refine ⟨d2, ?_, h5, by simpa using h6⟩
      rw [List.length_cons, copyFwd, hr, Res.ok_bind]
      have e : (A ++ (s :: S ++ B)).length = A.length + (S.length + 1) + B.length := by simp; omega
      rw [e] at h1
      rw [h1, Res.ok_bind]
      rw [show A.length + 1 = (A ++ [s]).length by simp, show A.length + (S.length + 1) + B.length + 1 = (A ++ [s]).length + S.length + (B ++ [s]).length by
        simp; omega]
      exact h4

/-- the destination begins at or before the source -/
theorem copyFwd_down {S : List (Option α)} : ∀ {D A C : List (Option α)} {d : VData α}, d ≠ .dangling → cells d = D ++ (A ++ (S ++ C)) →
    ∃ d' X, copyFwd d (D.length + A.length) D.length S.length = .ok d' ∧ d' ≠ .dangling ∧ cells d' = D ++ (S ++ X) ∧ X.length = A.length + C.length := by
  induction S with
  | nil =>
    intro D A C d hd h
    exact ⟨d, A ++ C, rfl, hd, by simpa using h, by simp⟩
  | cons s S ih =>
    intro D A C d hd h
    have hr := read_one hd (A := D ++ A) (C := S ++ C) (t := s) (by simpa using h)
    rw [List.length_append] at hr
    cases A with
    | nil =>
      obtain ⟨d1, h1, h2, h3⟩ := store_one hd (A := D) (C := S ++ C) (t := s) (x := s) (by simpa using h)
      obtain ⟨d2, X, h4, h5, h6, h7⟩ := ih (D := D ++ [s]) (A := []) (C := C) (d := d1) h2 (by simpa using h3)
      refine ⟨d2, X, ?_, h5, by simpa using h6, by simpa using h7⟩
      rw [List.length_cons, copyFwd, hr, Res.ok_bind, h1, Res.ok_bind]
      simpa using h4
    | cons x A =>
      obtain ⟨d1, h1, h2, h3⟩ := store_one hd (A := D) (C := A ++ (s :: S ++ C)) (t := x) (x := s) (by simpa using h)
      obtain ⟨d2, X, h4, h5, h6, h7⟩ := ih (D := D ++ [s]) (A := A ++ [s]) (C := C) (d := d1) h2 (by simpa using h3)
      refine ⟨d2, X, ?_, h5, by simpa using h6, by simpa using h7⟩
      rw [show (s :: S).length = S.length + 1 from rfl, copyFwd, hr, Res.ok_bind, h1, Res.ok_bind]
      rw [show D.length + (x :: A).length + 1 = (D ++ [s]).length + (A ++ [s]).length by simp; omega, show D.length + 1 = (D ++ [s]).length by simp]
      exact h4

/-- source and destination are the same -/
theorem copyFwd_same {S : List (Option α)} : ∀ {D C : List (Option α)} {d : VData α}, d ≠ .dangling → cells d = D ++ (S ++ C) →
    ∃ d', copyFwd d D.length D.length S.length = .ok d' ∧ d' ≠ .dangling ∧ cells d' = D ++ (S ++ C) := by
  induction S with
  | nil => intro D C d hd h; exact ⟨d, rfl, hd, h⟩
  | cons s S ih =>
    intro D C d hd h
    have hr := read_one hd (A := D) (C := S ++ C) (t := s) (by simpa using h)
    obtain ⟨d1, h1, h2, h3⟩ := store_one hd (A := D) (C := S ++ C) (t := s) (x := s) (by simpa using h)
    obtain ⟨d2, h4, h5, h6⟩ := ih (D := D ++ [s]) (C := C) (d := d1) h2 (by simpa using h3)
    refine ⟨d2, ?_, h5, by simpa using h6⟩
    rw [List.length_cons, copyFwd, hr, Res.ok_bind, h1, Res.ok_bind]
    simpa using h4

/-- the state of `insertOwn` before the range is copied, without reallocation -/
theorem insertOwn_open (R : Rep v xs) {i n : Nat} (hn : v.size + n ≤ v.alloc) (hn2 : Fits cfg.sz (xs.length + n)) (hi : i ≤ xs.length) :
    ∃ v1 g d, g = (xs.drop i ++ List.replicate n cfg.dflt).take n ∧ g.length = n ∧ resize cfg grant v (w64 (v.size + n)) = .ok (v1, .val false) ∧
      ¬ n > v1.size ∧ readRange v1.data i (v1.size - n) = .ok ((xs.drop i).map some) ∧ store v1.data (i + n) ((xs.drop i).map some) = .ok d ∧
      Rep { v1 with data := d } (xs.take i ++ g ++ xs.drop i) := by
  have hF := fits_le hn2
  have hs := R.size_eq
  rcases resizeA_sim (cfg := cfg) (grant := grant) (v := v) R (n := xs.length + n) hn2 cfg.dflt with h | ⟨_, h1⟩
  case inr => exact absurd (exc_of_resizeA h1) (by omega)
  obtain ⟨v1, m, h1, R1, hm, ha, _⟩ := h
  have hm' : m = false := by
    cases m with
    | false => rfl
    | true => exact absurd (hm.mp rfl) (by omega)
  subst hm'
  have e1 : xs.take (xs.length + n) ++ List.replicate (xs.length + n - xs.length) cfg.dflt
      = xs.take i ++ xs.drop i ++ List.replicate n cfg.dflt := by
    rw [List.take_of_length_le (by omega), List.take_append_drop, Nat.add_sub_cancel_left]
  rw [e1] at R1
  have hs1 : v1.size = xs.length + n := by rw [R1.size_eq]; simp
  obtain ⟨g, d, hg0, hg, h2, h3, R2⟩ := gap (i := i) R1 (by simp; omega)
  exact ⟨v1, g, d, hg0, hg, by rw [hs, w64_of_lt (by omega), resize, h1], by omega, h2, h3, R2⟩

theorem insertOwn_eq {i a b : Nat} (hi : i ≤ v.size) (hne : a < b) {v1 : Vec α} {tl : List (Option α)} {d : VData α}
    (h1 : resize cfg grant v (w64 (v.size + (b - a))) = .ok (v1, .val false)) (h2 : ¬ b - a > v1.size)
    (h3 : readRange v1.data i (v1.size - (b - a)) = .ok tl) (h4 : store v1.data (i + (b - a)) tl = .ok d) :
    insertOwn cfg grant v i a b = (do
      let d ← copyFwd d a i (b - a)
      ret { v1 with data := d } ()) := by
  unfold insertOwn
  simp only
  rw [if_neg (by omega), h1, andThen_val, if_neg h2, h3, Res.ok_bind, h4, Res.ok_bind, if_neg (by omega), if_neg (by simp)]

end Vec
end Eni
