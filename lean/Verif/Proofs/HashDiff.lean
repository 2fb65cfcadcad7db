import Verif.Proofs.Hasher
import Verif.Spec.HashDiff
/-!
# Injectivity of the steps of the string hash functions
-/
namespace Eni.Hasher
open Spec

theorem sx_inj {a b : UInt8} (h : sx a = sx b) : a = b := by
  revert a b
  have key : ∀ a : UInt8, (sx a).toNat % 256 = a.toNat := by
    intro a
    have ha : a.toNat < 256 := a.toNat_lt
    unfold sx
    split
    · rw [UInt32.toNat_ofNat']; omega
    · rw [UInt32.toNat_add, UInt32.toNat_ofNat']
      have : (0xFFFFFF00 : UInt32).toNat = 4294967040 := rfl
      omega
  intro a b h
  have := key a
  rw [h, key b] at this
  exact UInt8.toNat_inj.mp this.symm

/-- Folding with steps that are injective in the state is injective in the state. -/
theorem foldl_inj {σ : Type} (f : σ → UInt8 → σ) (P : σ → σ → Prop) (hP : ∀ x y c, P x y → P (f x c) (f y c))
    (hne : ∀ x y c, P x y → x ≠ y → f x c ≠ f y c) (v : List UInt8) : ∀ x y, P x y → x ≠ y → v.foldl f x ≠ v.foldl f y := by
  induction v with
  | nil => intro x y _ h; exact h
  | cons c v ih => intro x y hp h; exact ih _ _ (hP _ _ _ hp) (hne _ _ _ hp h)

theorem diffOne_foldl (f : UInt32 → UInt8 → UInt32) (h1 : ∀ x y c, f x c = f y c → x = y) (h2 : ∀ x a b, f x a = f x b → a = b)
    {s t : List UInt8} (h : DiffOne s t) (x : UInt32) : s.foldl f x ≠ t.foldl f x := by
  obtain ⟨u, v, a, b, hab, rfl, rfl⟩ := h
  rw [List.foldl_append, List.foldl_append, List.foldl_cons, List.foldl_cons]
  exact foldl_inj f (fun _ _ => True) (fun _ _ _ _ => trivial) (fun x y c _ hn e => hn (h1 _ _ _ e)) v _ _ trivial
    (fun e => hab (h2 _ _ _ e))

/-- Multiplication by an invertible constant is injective. -/
theorem mul_inj {q k : UInt32} (hk : q * k = 1) {x y : UInt32} (h : x * q = y * q) : x = y := by
  have := congrArg (· * k) h
  simp only [UInt32.mul_assoc, hk, UInt32.mul_one] at this
  exact this

theorem add_right_inj' {x y z : UInt32} (h : x + z = y + z) : x = y := by
  have := congrArg (· - z) h
  simpa [UInt32.add_sub_cancel] using this

theorem add_left_inj' {x y z : UInt32} (h : z + x = z + y) : x = y := by
  rw [UInt32.add_comm z x, UInt32.add_comm z y] at h
  exact add_right_inj' h

theorem xor_right_inj {x y z : UInt32} (h : x ^^^ z = y ^^^ z) : x = y := by
  have := congrArg (· ^^^ z) h
  simpa [UInt32.xor_assoc] using this

theorem xor_left_inj {x y z : UInt32} (h : z ^^^ x = z ^^^ y) : x = y := by
  rw [UInt32.xor_comm z x, UInt32.xor_comm z y] at h
  exact xor_right_inj h

/-- Steps of the form `h * q + c`. -/
theorem poly_separates (f : UInt32 → UInt8 → UInt32) (q k : UInt32) (hk : q * k = 1) (hf : ∀ h c, f h c = h * q + sx c) {s t : List UInt8}
    (h : DiffOne s t) (x : UInt32) : s.foldl f x ≠ t.foldl f x := by
  refine diffOne_foldl f ?_ ?_ h x
  · intro x y c e
    rw [hf, hf] at e
    exact mul_inj hk (add_right_inj' e)
  · intro x a b e
    rw [hf, hf] at e
    exact sx_inj (add_left_inj' e)

theorem sdbm_step (h : UInt32) (c : UInt8) : sx c + (h <<< 6) + (h <<< 16) - h = h * 65599 + sx c := by
  rw [shl6, shl16]; grind

theorem djb_step (h : UInt32) (c : UInt8) : ((h <<< 5) + h) + sx c = h * 33 + sx c := by
  rw [shl5]; grind

/-- Rotation by five bits is injective. -/
theorem rot_inj {x y : UInt32} (h : (x <<< 5) ^^^ (x >>> 27) = (y <<< 5) ^^^ (y >>> 27)) : x = y := by
  have hb : ∀ z : UInt32, ((z <<< 5) ^^^ (z >>> 27)).toBitVec = (z.toBitVec <<< 5) ^^^ (z.toBitVec >>> 27) := fun z => rfl
  have h' := congrArg UInt32.toBitVec h
  rw [hb, hb] at h'
  apply UInt32.toBitVec_inj.mp
  apply BitVec.eq_of_getLsbD_eq
  intro i hi
  by_cases h5 : i < 27
  · have := congrArg (fun b => b.getLsbD (i + 5)) h'
    simp only [BitVec.getLsbD_xor, BitVec.getLsbD_shiftLeft, BitVec.getLsbD_ushiftRight] at this
    rw [BitVec.getLsbD_of_ge _ (27 + (i + 5)) (by omega), BitVec.getLsbD_of_ge _ (27 + (i + 5)) (by omega)] at this
    simpa [show i + 5 < 32 by omega, show ¬ i + 5 < 5 by omega] using this
  · have := congrArg (fun b => b.getLsbD (i - 27)) h'
    simp only [BitVec.getLsbD_xor, BitVec.getLsbD_shiftLeft, BitVec.getLsbD_ushiftRight] at this
    rw [show 27 + (i - 27) = i by omega] at this
    simpa [show i - 27 < 5 by omega] using this

/-- The state of RS: the second component is the same for strings of the same length and is invertible. -/
theorem rs_separates {s t : List UInt8} (h : DiffOne s t) : rs s ≠ rs t := by
  obtain ⟨u, v, a, b, hab, rfl, rfl⟩ := h
  have inv : ∀ (u : List UInt8) (st : UInt32 × UInt32), (∃ k, st.2 * k = 1) →
      ∃ k, (u.foldl (fun (st : UInt32 × UInt32) c => (st.1 * st.2 + sx c, st.2 * 378551)) st).2 * k = 1 := by
    intro u
    induction u with
    | nil => intro st h; exact h
    | cons c u ih =>
      intro st ⟨k, hk⟩
      refine ih _ ⟨k * 4140562183, ?_⟩
      have h1 : (378551 : UInt32) * 4140562183 = 1 := by decide
      calc st.2 * 378551 * (k * 4140562183) = (st.2 * k) * (378551 * 4140562183) := by grind
        _ = 1 := by rw [hk, h1]; rfl
  unfold rs
  rw [List.foldl_append, List.foldl_append, List.foldl_cons, List.foldl_cons]
  obtain ⟨k, hk⟩ := inv u (0, 63689) ⟨1752473977, by decide⟩
  generalize u.foldl (fun (st : UInt32 × UInt32) c => (st.1 * st.2 + sx c, st.2 * 378551)) (0, 63689) = st at hk
  have key : ∀ (v : List UInt8) (x y q : UInt32), (∃ k, q * k = 1) → x ≠ y →
      (v.foldl (fun (st : UInt32 × UInt32) c => (st.1 * st.2 + sx c, st.2 * 378551)) (x, q)).1 ≠
      (v.foldl (fun (st : UInt32 × UInt32) c => (st.1 * st.2 + sx c, st.2 * 378551)) (y, q)).1 := by
    intro v
    induction v with
    | nil => intro x y q _ h; exact h
    | cons c v ih =>
      intro x y q hq hne
      obtain ⟨k, hk⟩ := hq
      obtain ⟨k', hk'⟩ := inv [c] (x, q) ⟨k, hk⟩
      exact ih _ _ _ ⟨k', hk'⟩ (fun e => hne (mul_inj hk (add_right_inj' e)))
  obtain ⟨k', hk'⟩ := inv [a] st ⟨k, hk⟩
  exact key v _ _ _ ⟨k', hk'⟩ (fun e => hab (sx_inj (add_left_inj' e)))

/-- A difference of the states of BP moves up by seven bits in every step. -/
theorem bp_diff (v : List UInt8) : ∀ h d : UInt32, v.foldl (fun (h : UInt32) c => (h <<< 7) ^^^ sx c) (h ^^^ d) =
    v.foldl (fun (h : UInt32) c => (h <<< 7) ^^^ sx c) h ^^^ v.foldl (fun (d : UInt32) _ => d <<< 7) d := by
  induction v with
  | nil => intro h d; rfl
  | cons c v ih =>
    intro h d
    rw [List.foldl_cons, List.foldl_cons, List.foldl_cons, ← ih]
    congr 1
    have : (h ^^^ d) <<< 7 = (h <<< 7) ^^^ (d <<< 7) := by
      apply UInt32.toBitVec_inj.mp
      show (h.toBitVec ^^^ d.toBitVec) <<< 7 = (h.toBitVec <<< 7) ^^^ (d.toBitVec <<< 7)
      exact BitVec.shiftLeft_xor_distrib ..
    rw [this, UInt32.xor_assoc, UInt32.xor_assoc, UInt32.xor_comm (d <<< 7)]

theorem shl7_zero (v : List UInt8) (hv : 5 ≤ v.length) (d : UInt32) : v.foldl (fun (d : UInt32) _ => d <<< 7) d = 0 := by
  match v, hv with
  | _ :: _ :: _ :: _ :: _ :: v, _ =>
    simp only [List.foldl_cons]
    have : ((((d <<< 7) <<< 7) <<< 7) <<< 7) <<< 7 = 0 := by
      apply UInt32.toBitVec_inj.mp
      show ((((d.toBitVec <<< 7) <<< 7) <<< 7) <<< 7) <<< 7 = 0#32
      apply BitVec.eq_of_getLsbD_eq
      intro i hi
      simp only [BitVec.getLsbD_shiftLeft, BitVec.getLsbD_zero]
      grind
    rw [this]
    clear this
    induction v with
    | nil => rfl
    | cons c v ih => rw [List.foldl_cons]; exact ih (by simp)

end Eni.Hasher
