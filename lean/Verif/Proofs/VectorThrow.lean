import Verif.Spec.VectorThrow
import Verif.Proofs.VectorObj
import Mathlib.Tactic.Tauto
/-!
# Proofs about Model/VectorThrow
-/
namespace Eni.OThr
open OVec Spec
variable {α : Type}

/-- `as` written over `zs` from `i` on. -/
def laid (zs : List α) (i : Nat) (as : List α) : List α := zs.take i ++ as ++ zs.drop (i + as.length)

theorem laid_nil (zs : List α) (i : Nat) : laid zs i [] = zs := by simp [laid]

theorem laid_len {zs as : List α} {i : Nat} (h : i + as.length ≤ zs.length) : (laid zs i as).length = zs.length := by
  simp [laid]; omega

theorem laid_len_ge {zs as : List α} {i : Nat} (h : i ≤ zs.length) : zs.length ≤ (laid zs i as).length := by
  simp [laid]; omega

theorem laid_len_eq {zs as : List α} {i : Nat} (h : i ≤ zs.length) : (laid zs i as).length = max zs.length (i + as.length) := by
  simp [laid]; omega

theorem laid_get {zs as : List α} {i : Nat} (h : i ≤ zs.length) (k : Nat) :
    (laid zs i as)[k]? = if k < i then zs[k]? else if k < i + as.length then as[k - i]? else zs[k]? := by
  rw [laid, List.append_assoc]
  rcases Nat.lt_or_ge k i with h1 | h1
  · rw [if_pos h1, List.getElem?_append_left (by simp; omega), List.getElem?_take, if_pos h1]
  · rw [if_neg (by omega), List.getElem?_append_right (by simp; omega), List.length_take, Nat.min_eq_left h]
    split
    · rw [List.getElem?_append_left (by omega)]
    · rw [List.getElem?_append_right (by omega), List.getElem?_drop]
      congr 1
      omega

theorem laid_cons {zs as : List α} {i : Nat} (a : α) (h : i ≤ zs.length) : laid (laid zs i [a]) (i + 1) as = laid zs i (a :: as) := by
  apply List.ext_getElem?
  intro k
  rw [laid_get (by rw [laid_len_eq h]; simp; omega), laid_get h, laid_get h]
  rcases Nat.lt_trichotomy k i with h1 | h1 | h1
  · simp [h1, show k < i + 1 by omega]
  · subst h1; simp
  · simp only [show ¬ k < i + 1 by omega, show ¬ k < i by omega, if_false, List.length_cons, List.length_nil, Nat.zero_add]
    by_cases h2 : k < i + 1 + as.length
    · rw [if_pos h2, if_pos (by omega), show k - i = (k - (i + 1)) + 1 by omega, List.getElem?_cons_succ]
    · rw [if_neg h2, if_neg (by omega)]

/-- The same from behind. -/
theorem laid_snoc {zs as : List α} {i : Nat} (a : α) (h : i + as.length < zs.length) :
    laid (laid zs (i + as.length) [a]) i as = laid zs i (as ++ [a]) := by
  apply List.ext_getElem?
  intro k
  rw [laid_get (by rw [laid_len_eq (by omega)]; simp; omega), laid_get (by omega), laid_get (by omega)]
  rcases Nat.lt_or_ge k i with h1 | h1
  · simp [h1, show k < i + as.length by omega]
  · simp only [show ¬ k < i by omega, if_false, List.length_append, List.length_singleton]
    by_cases h2 : k < i + as.length
    · rw [if_pos h2, if_pos (by omega), List.getElem?_append_left (by omega)]
    · rw [if_neg h2, if_neg h2]
      by_cases h3 : k < i + as.length + 1
      · rw [if_pos h3, if_pos (by omega), List.getElem?_append_right (by omega)]
        congr 1; omega
      · rw [if_neg h3, if_neg (by omega)]

/-- Sizes and capacities are left alone. -/
def Same (v v' : OVec α) : Prop := v'.size = v.size ∧ v'.alloc = v.alloc

theorem Same.trans {u v w : OVec α} (h : Same u v) (h' : Same v w) : Same u w := ⟨h'.1.trans h.1, h'.2.trans h.2⟩

/-- What an action that makes `w` copies has done, `f j` being the objects after `j` of them. -/
def Did (boom : Nat → Bool) (n w : Nat) (f : Nat → List α) (v : OVec α) (r : Ran α) : Prop :=
  Same v r.vec ∧
  match firstFault boom n w with
  | none => r.thrown = false ∧ r.n = n + w ∧ Blk r.vec (f w)
  | some j => r.thrown = true ∧ r.n = n + j + 1 ∧ Blk r.vec (f j)

theorem assign1_ok (c : OCls α) (boom : Nat → Bool) {v : OVec α} {zs : List α} (h : Blk v zs) {i : Nat} (a : α) (n : Nat) (h1 : i ≤ zs.length)
    (h2 : i < v.alloc) (hb : c.blind = true ∨ i < zs.length) :
    ∃ r, assign1 c boom i a v n = .ok r ∧ Same v r.vec ∧ r.n = n + 1 ∧ r.thrown = boom n ∧
      Blk r.vec (if boom n then zs else laid zs i [a]) := by
  obtain ⟨m, hm, hd | ⟨hd, rfl, rfl⟩⟩ := h.data
  · have key : ∃ x k m', (block zs m)[i]? = some x ∧ over c x = .ok k ∧ (block zs m).set i (.obj a) = block (laid zs i [a]) m' ∧
        zs.length + m = (laid zs i [a]).length + m' := by
      rcases Nat.lt_or_ge i zs.length with h3 | h3
      · refine ⟨_, _, m, block_obj h3, rfl, ?_, by rw [laid_len (by simp; omega)]⟩
        rw [block_set a h3, List.set_eq_take_append_cons_drop, if_pos h3]
        simp [laid]
      · have e : i = zs.length := by omega
        subst e
        obtain ⟨m, rfl⟩ : ∃ m', m = m' + 1 := ⟨m - 1, by omega⟩
        have hb' := hb.resolve_right (by omega)
        refine ⟨_, 0, m, block_raw (Nat.le_refl _) (by omega), by simp [over, hb'], ?_, by simp [laid]; omega⟩
        rw [block_set_end]
        simp [laid, List.drop_eq_nil_of_le]
    obtain ⟨x, k, m', e1, e2, e3, e4⟩ := key
    simp only [assign1, hd, e1, e2, Res.ok_bind]
    cases hbm : boom n with
    | true => exact ⟨_, rfl, ⟨rfl, rfl⟩, rfl, rfl, by simpa using h⟩
    | false =>
      refine ⟨_, rfl, ⟨rfl, rfl⟩, rfl, rfl, ⟨⟨m', by simpa using (by omega : v.alloc ≤ (laid zs i [a]).length + m'), .inl (by simp [e3])⟩, ?_⟩⟩
      have := h.objs
      simp only [laid_len_eq h1, List.length_singleton, Bool.false_eq_true, if_false]
      show _ ≤ v.alloc
      omega
  · simp at hm; omega

theorem did_nil (boom : Nat → Bool) (n : Nat) {f : Nat → List α} {v : OVec α} (h : Blk v (f 0)) : Did boom n 0 f v ⟨v, n, false⟩ :=
  ⟨⟨rfl, rfl⟩, rfl, rfl, h⟩

/-- One copy, then the rest. -/
theorem did_cons {boom : Nat → Bool} {n w : Nat} {f : Nat → List α} {v : OVec α} {a b : Act α}
    (h1 : ∃ r, a v n = .ok r ∧ Same v r.vec ∧ r.n = n + 1 ∧ r.thrown = boom n ∧ Blk r.vec (if boom n then f 0 else f 1))
    (h2 : ∀ v', Same v v' → Blk v' (f 1) → ∃ r, b v' (n + 1) = .ok r ∧ Did boom (n + 1) w (fun j => f (j + 1)) v' r) :
    ∃ r, andThen a b v n = .ok r ∧ Did boom n (w + 1) f v r := by
  obtain ⟨r, e, s, en, et, bl⟩ := h1
  cases hb : boom n with
  | true =>
    rw [hb] at et
    simp only [hb, if_true] at bl
    refine ⟨r, by simp [andThen, e, et], s, ?_⟩
    simp only [firstFault, hb, if_true]
    exact ⟨et, en, bl⟩
  | false =>
    rw [hb] at et
    simp only [hb, Bool.false_eq_true, if_false] at bl
    obtain ⟨r', e', s', d'⟩ := h2 r.vec s bl
    refine ⟨r', by simp [andThen, e, et, en, e'], s.trans s', ?_⟩
    simp only [firstFault, hb, Bool.false_eq_true, if_false]
    cases hf : firstFault boom (n + 1) w with
    | none =>
      rw [hf] at d'
      exact ⟨d'.1, by rw [d'.2.1]; omega, d'.2.2⟩
    | some j =>
      rw [hf] at d'
      exact ⟨d'.1, by rw [d'.2.1]; show n + 1 + j + 1 = n + (j + 1) + 1; omega, d'.2.2⟩

theorem firstFault_lt {boom : Nat → Bool} : ∀ {w n j : Nat}, firstFault boom n w = some j → j < w := by
  intro w
  induction w with
  | zero => intro n j h; simp [firstFault] at h
  | succ w ih =>
    intro n j h
    rw [firstFault] at h
    split at h
    · cases h; omega
    · cases hf : firstFault boom (n + 1) w with
      | none => simp [hf] at h
      | some k =>
        have := ih hf
        simp [hf] at h
        omega

theorem Did.congr {boom : Nat → Bool} {n w : Nat} {f g : Nat → List α} {v : OVec α} {r : Ran α} (h : Did boom n w f v r)
    (hfg : ∀ j ≤ w, f j = g j) : Did boom n w g v r := by
  refine ⟨h.1, ?_⟩
  have h2 := h.2
  cases hf : firstFault boom n w with
  | none => rw [hf] at h2; exact ⟨h2.1, h2.2.1, hfg w (Nat.le_refl _) ▸ h2.2.2⟩
  | some j => rw [hf] at h2; exact ⟨h2.1, h2.2.1, hfg j (Nat.le_of_lt (firstFault_lt hf)) ▸ h2.2.2⟩

theorem fill_ok (c : OCls α) (boom : Nat → Bool) : ∀ (as zs : List α) (v : OVec α) (i n : Nat), Blk v zs → i ≤ zs.length →
    i + as.length ≤ v.alloc → (c.blind = true ∨ i + as.length ≤ zs.length) →
    ∃ r, fill c boom i as v n = .ok r ∧ Did boom n as.length (fun j => laid zs i (as.take j)) v r := by
  intro as
  induction as with
  | nil => intro zs v i n h _ _ _; exact ⟨_, rfl, did_nil boom n (by simpa [laid_nil] using h)⟩
  | cons a as ih =>
    intro zs v i n h h1 h2 h3
    simp only [List.length_cons] at h2 h3
    refine did_cons (by simpa [laid_nil] using assign1_ok c boom h a n h1 (by omega) (h3.imp id (by omega))) ?_
    intro v' s' b'
    simp only [List.take_succ_cons, List.take_zero] at b'
    obtain ⟨r, e, d⟩ := ih (laid zs i [a]) v' (i + 1) (n + 1) b' (by rw [laid_len_eq h1]; simp; omega) (by rw [s'.2]; omega)
      (h3.imp id (by rw [laid_len_eq h1]; simp; omega))
    refine ⟨r, e, ?_⟩
    have hf : (fun j => laid (laid zs i [a]) (i + 1) (as.take j)) = (fun j => laid zs i ((a :: as).take (j + 1))) := by
      funext j; rw [laid_cons a h1, List.take_succ_cons]
    rw [hf] at d
    exact d

theorem copy1_ok (c : OCls α) (boom : Nat → Bool) {v : OVec α} {zs : List α} (h : Blk v zs) {src dst : Nat} (n : Nat) (h1 : src < zs.length)
    (h2 : dst < zs.length) :
    ∃ r, copy1 c boom src dst v n = .ok r ∧ Same v r.vec ∧ r.n = n + 1 ∧ r.thrown = boom n ∧
      Blk r.vec (if boom n then zs else laid zs dst [zs[src]]) := by
  rw [copy1, readO_blk c h h1]
  have := h.objs
  exact assign1_ok c boom h _ n (by omega) (by omega) (.inr h2)

theorem copyFwd_ok (c : OCls α) (boom : Nat → Bool) : ∀ (len : Nat) (zs : List α) (v : OVec α) (src dst n : Nat), Blk v zs → dst ≤ src →
    src + len ≤ zs.length →
    ∃ r, copyFwd c boom src dst len v n = .ok r ∧ Did boom n len (fun j => laid zs dst ((zs.drop src).take j)) v r := by
  intro len
  induction len with
  | zero => intro zs v src dst n h _ _; exact ⟨_, rfl, did_nil boom n (by simpa [laid_nil] using h)⟩
  | succ len ih =>
    intro zs v src dst n h h1 h2
    have hd : zs.drop src = zs[src] :: zs.drop (src + 1) := List.drop_eq_getElem_cons (by omega)
    refine did_cons (by
      have := copy1_ok c boom h (src := src) (dst := dst) n (by omega) (by omega)
      rw [hd, List.take_zero, List.take_succ_cons, List.take_zero, laid_nil]
      exact this) ?_
    intro v' s' b'
    simp only [hd, List.take_succ_cons, List.take_zero] at b'
    have hl : (laid zs dst [zs[src]]).length = zs.length := laid_len (by simp; omega)
    obtain ⟨r, e, d⟩ := ih (laid zs dst [zs[src]]) v' (src + 1) (dst + 1) (n + 1) b' (by omega) (by rw [hl]; omega)
    refine ⟨r, e, ?_⟩
    have hdr : (laid zs dst [zs[src]]).drop (src + 1) = zs.drop (src + 1) := by
      apply List.ext_getElem?
      intro k
      rw [List.getElem?_drop, List.getElem?_drop, laid_get (by omega), if_neg (by omega), if_neg (by simp; omega)]
    have hf : (fun j => laid (laid zs dst [zs[src]]) (dst + 1) (((laid zs dst [zs[src]]).drop (src + 1)).take j))
        = (fun j => laid zs dst ((zs.drop src).take (j + 1))) := by
      funext j; rw [hdr, laid_cons _ (by omega), hd, List.take_succ_cons]
    rw [hf] at d
    exact d

/-- The last `j` of the elements `src .. src + len - 1`. -/
def lastOf (zs : List α) (src len j : Nat) : List α := (zs.drop (src + len - j)).take j

theorem copyBack_ok (c : OCls α) (boom : Nat → Bool) : ∀ (len : Nat) (zs : List α) (v : OVec α) (src dst n : Nat), Blk v zs → src ≤ dst →
    dst + len ≤ zs.length →
    ∃ r, copyBack c boom src dst len v n = .ok r ∧ Did boom n len (fun j => laid zs (dst + len - j) (lastOf zs src len j)) v r := by
  intro len
  induction len with
  | zero => intro zs v src dst n h _ _; exact ⟨_, rfl, did_nil boom n (by simpa [laid_nil, lastOf] using h)⟩
  | succ len ih =>
    intro zs v src dst n h h1 h2
    have hx : src + len < zs.length := by omega
    have h0 : laid zs (dst + (len + 1) - 0) (lastOf zs src (len + 1) 0) = zs := by simp [lastOf, laid_nil]
    have h1' : laid zs (dst + (len + 1) - 1) (lastOf zs src (len + 1) 1) = laid zs (dst + len) [zs[src + len]] := by
      rw [lastOf, show src + (len + 1) - 1 = src + len by omega, show dst + (len + 1) - 1 = dst + len by omega,
        List.drop_eq_getElem_cons hx, List.take_succ_cons, List.take_zero]
    refine did_cons (by
      have := copy1_ok c boom h (src := src + len) (dst := dst + len) n hx (by omega)
      rw [h0, h1']
      exact this) ?_
    intro v' s' b'
    rw [h1'] at b'
    have hl : (laid zs (dst + len) [zs[src + len]]).length = zs.length := laid_len (by simp; omega)
    obtain ⟨r, e, d⟩ := ih (laid zs (dst + len) [zs[src + len]]) v' src dst (n + 1) b' h1 (by rw [hl]; omega)
    refine ⟨r, e, d.congr ?_⟩
    intro j hj
    have hlast : lastOf (laid zs (dst + len) [zs[src + len]]) src len j = lastOf zs src len j := by
      apply List.ext_getElem?
      intro k
      rw [lastOf, lastOf, List.getElem?_take, List.getElem?_take]
      split
      · rw [List.getElem?_drop, List.getElem?_drop, laid_get (by omega), if_pos (by omega)]
      · rfl
    have hlen : (lastOf zs src len j).length = j := by rw [lastOf, List.length_take, List.length_drop]; omega
    have hsn : lastOf zs src (len + 1) (j + 1) = lastOf zs src len j ++ [zs[src + len]] := by
      rw [lastOf, lastOf, show src + (len + 1) - (j + 1) = src + len - j by omega, List.take_add_one, List.getElem?_drop,
        show src + len - j + j = src + len by omega, List.getElem?_eq_getElem hx]
      rfl
    rw [hlast, hsn, show dst + (len + 1) - (j + 1) = dst + len - j by omega, ← laid_snoc _ (by omega), hlen,
      show dst + len - j + j = dst + len by omega]

/-- What an action that makes `w` copies has done: `D` if all succeed, `F j` if `j` succeed and the next fails. -/
def Out (boom : Nat → Bool) (n w : Nat) (D : OVec α → Prop) (F : Nat → OVec α → Prop) (r : Ran α) : Prop :=
  match firstFault boom n w with
  | none => r.thrown = false ∧ r.n = n + w ∧ D r.vec
  | some j => r.thrown = true ∧ r.n = n + j + 1 ∧ F j r.vec

theorem firstFault_add (boom : Nat → Bool) : ∀ (w1 n w2 : Nat), firstFault boom n (w1 + w2)
    = match firstFault boom n w1 with | some j => some j | none => (firstFault boom (n + w1) w2).map (· + w1) := by
  intro w1
  induction w1 with
  | zero => intro n w2; cases h : firstFault boom n w2 <;> simp [firstFault, h]
  | succ w1 ih =>
    intro n w2
    rw [show w1 + 1 + w2 = (w1 + w2) + 1 by omega, firstFault, firstFault]
    split
    · rfl
    · rw [ih, show n + 1 + w1 = n + (w1 + 1) by omega]
      cases firstFault boom (n + 1) w1 with
      | some j => rfl
      | none =>
        cases firstFault boom (n + (w1 + 1)) w2 with
        | none => rfl
        | some j => simp only [Option.map_some]; congr 1

theorem out_seq {boom : Nat → Bool} {n w1 w2 : Nat} {D1 D2 : OVec α → Prop} {F1 F2 : Nat → OVec α → Prop} {v : OVec α} {a b : Act α}
    (h1 : ∃ r, a v n = .ok r ∧ Out boom n w1 D1 F1 r)
    (h2 : ∀ v', D1 v' → ∃ r, b v' (n + w1) = .ok r ∧ Out boom (n + w1) w2 D2 F2 r) :
    ∃ r, andThen a b v n = .ok r ∧ Out boom n (w1 + w2) D2 (fun j v => if j < w1 then F1 j v else F2 (j - w1) v) r := by
  obtain ⟨r, e, o⟩ := h1
  unfold Out at o
  unfold Out
  rw [firstFault_add]
  cases hf : firstFault boom n w1 with
  | some j =>
    rw [hf] at o
    exact ⟨r, by simp [andThen, e, o.1], o.1, o.2.1, by simpa [firstFault_lt hf] using o.2.2⟩
  | none =>
    rw [hf] at o
    obtain ⟨r', e', o'⟩ := h2 r.vec o.2.2
    refine ⟨r', by simp [andThen, e, o.1, o.2.1, e'], ?_⟩
    unfold Out at o'
    cases hf2 : firstFault boom (n + w1) w2 with
    | none =>
      rw [hf2] at o'
      exact ⟨o'.1, by rw [o'.2.1]; omega, o'.2.2⟩
    | some j =>
      rw [hf2] at o'
      refine ⟨o'.1, by rw [o'.2.1]; show n + w1 + j + 1 = n + (j + w1) + 1; omega, ?_⟩
      show if j + w1 < w1 then F1 (j + w1) r'.vec else F2 (j + w1 - w1) r'.vec
      rw [if_neg (by omega), Nat.add_sub_cancel]
      exact o'.2.2

theorem Out.imp {boom : Nat → Bool} {n w : Nat} {D D' : OVec α → Prop} {F F' : Nat → OVec α → Prop} {r : Ran α} (h : Out boom n w D F r)
    (hD : ∀ v, D v → D' v) (hF : ∀ j v, j < w → F j v → F' j v) : Out boom n w D' F' r := by
  unfold Out at *
  cases hf : firstFault boom n w with
  | none => rw [hf] at h; exact ⟨h.1, h.2.1, hD _ h.2.2⟩
  | some j => rw [hf] at h; exact ⟨h.1, h.2.1, hF _ _ (firstFault_lt hf) h.2.2⟩

theorem Did.out {boom : Nat → Bool} {n w : Nat} {f : Nat → List α} {v : OVec α} {r : Ran α} (h : Did boom n w f v r) :
    Out boom n w (fun v' => Same v v' ∧ Blk v' (f w)) (fun j v' => Same v v' ∧ Blk v' (f j)) r := by
  have h2 := h.2
  unfold Out
  cases hf : firstFault boom n w with
  | none => rw [hf] at h2; exact ⟨h2.1, h2.2.1, h.1, h2.2.2⟩
  | some j => rw [hf] at h2; exact ⟨h2.1, h2.2.1, h.1, h2.2.2⟩

theorem out_lift {boom : Nat → Bool} {n : Nat} {D : OVec α → Prop} {F : Nat → OVec α → Prop} {v v' : OVec α} {f : OVec α → Res (OVec α)}
    (h : f v = .ok v') (hd : D v') : ∃ r, lift f v n = .ok r ∧ Out boom n 0 D F r :=
  ⟨⟨v', n, false⟩, by simp [lift, h], rfl, rfl, hd⟩

/-- The elements are `xs`; an ordinary class has as many objects ready as before. -/
def Keeps (c : OCls α) (m : Nat) (xs : List α) (v : OVec α) : Prop := ∃ zs, Inv v xs zs ∧ (c.blind = false → zs.length = m)

theorem laid_append {ws ys as : List α} {p : Nat} (h : p + as.length ≤ ws.length) : laid (ws ++ ys) p as = laid ws p as ++ ys := by
  rw [laid, laid, List.take_append_of_le_length (by omega), List.drop_append_of_le_length h, List.append_assoc _ (ws.drop _) ys]

theorem keeps_laid {c : OCls α} {m : Nat} {ws ys as : List α} {p : Nat} {v : OVec α} (h : Blk v (laid (ws ++ ys) p as)) (hs : v.size = ws.length)
    (hp : p + as.length ≤ ws.length) (hm : c.blind = false → (ws ++ ys).length = m) : Keeps c m (laid ws p as) v := by
  refine ⟨_, ⟨h, by rw [laid_len hp, hs], ys, laid_append hp⟩, fun hb => ?_⟩
  rw [laid_len (by simp; omega)]
  exact hm hb

theorem resize_out (c : OCls α) (hr : c.reloc = true) (boom : Nat → Bool) {v : OVec α} {xs zs : List α} (h : Inv v xs zs) {s : Nat} (a : α)
    (hn : Fits c.sz s) (hb : c.blind = true ∨ s ≤ zs.length) (n : Nat) :
    ∃ r, resize c boom s a v n = .ok r ∧ Out boom n (s - xs.length)
      (fun v' => Keeps c zs.length (xs.take s ++ List.replicate (s - xs.length) a) v' ∧ s ≤ v'.alloc)
      (fun _ v' => Keeps c zs.length xs v') r := by
  obtain ⟨v1, e1, b1, a1, s1, -, -⟩ := reserve_blk c hr h.blk hn
  have hs := h.size
  have hle := h.le
  obtain ⟨ys, ez⟩ := h.pre
  have ht : zs.take xs.length = xs := by rw [ez]; simp
  have key := out_seq (boom := boom) (n := n) (w1 := 0) (w2 := s - xs.length) (v := v) (F1 := fun _ _ => True)
    (D1 := fun v' => v' = v1)
    (D2 := fun v' => Keeps c zs.length (xs.take s ++ List.replicate (s - xs.length) a) v' ∧ s ≤ v'.alloc)
    (F2 := fun _ v' => Keeps c zs.length xs v')
    (b := fun v => andThen (if s > v.size then fill c boom v.size (List.replicate (s - v.size) a) else lift .ok) (setSize s) v)
    (out_lift (f := fun v => OVec.reserve c v s) e1 rfl) (by
      intro w hw
      rw [hw]
      simp only [s1, hs, Nat.add_zero]
      by_cases hgt : s > xs.length
      · rw [if_pos hgt]
        have hlr : (List.replicate (s - xs.length) a).length = s - xs.length := List.length_replicate
        obtain ⟨r, e, d⟩ := fill_ok c boom (List.replicate (s - xs.length) a) zs _ xs.length n b1 hle (by rw [hlr]; omega)
          (hb.imp id (by rw [hlr]; omega))
        rw [hlr] at d
        have := out_seq (boom := boom) (w2 := 0) (b := setSize s) ⟨r, e, d.out⟩
          (D2 := fun v' => Keeps c zs.length (xs.take s ++ List.replicate (s - xs.length) a) v' ∧ s ≤ v'.alloc)
          (F2 := fun _ v' => Keeps c zs.length xs v') (by
            rintro v' ⟨hsm, hbl⟩
            refine out_lift rfl ⟨⟨_, ⟨hbl.congr rfl rfl, ?_, ?_⟩, ?_⟩, ?_⟩
            · simp; omega
            · rw [List.take_of_length_le (by omega : xs.length ≤ s), List.take_of_length_le (by simp)]
              exact ⟨_, by rw [laid, ht]⟩
            · intro hbf
              rw [laid_len_eq hle, List.length_take, hlr]
              have := hb.resolve_left (by simp [hbf])
              omega
            · show s ≤ v'.alloc
              rw [hsm.2]; exact a1)
        refine this.imp fun r' h' => ⟨h'.1, h'.2.imp (fun _ x => x) ?_⟩
        intro j v' hj hF
        rw [if_pos (by omega)] at hF
        obtain ⟨hsm, hbl⟩ := hF
        refine ⟨_, ⟨hbl, by rw [hsm.1, s1, hs], ?_⟩, ?_⟩
        · exact ⟨_, by rw [laid, ht, List.append_assoc]⟩
        · intro hbf
          rw [laid_len_eq hle, List.length_take, hlr]
          have := hb.resolve_left (by simp [hbf])
          omega
      · rw [if_neg hgt, show s - xs.length = 0 by omega]
        have := out_seq (boom := boom) (n := n) (w1 := 0) (w2 := 0) (b := setSize s) (F1 := fun _ _ => True)
          (D2 := fun v' => Keeps c zs.length (xs.take s ++ List.replicate 0 a) v' ∧ s ≤ v'.alloc)
          (F2 := fun _ v' => Keeps c zs.length xs v')
          (out_lift (f := fun v => .ok v) (v := v1) (D := fun v' => v' = v1) rfl rfl) (by
            intro w hw
            rw [hw]
            refine out_lift rfl ⟨⟨zs, ⟨b1.congr rfl rfl, ?_, ?_⟩, fun _ => rfl⟩, a1⟩
            · simp; omega
            · refine ⟨xs.drop s ++ ys, ?_⟩
              rw [ez, List.replicate_zero, List.append_nil, ← List.append_assoc, List.take_append_drop])
        exact this.imp fun r' h' => ⟨h'.1, h'.2.imp (fun _ x => x) (fun j _ hj _ => absurd hj (by omega))⟩)
  obtain ⟨r, e, o⟩ := key
  rw [Nat.zero_add] at o
  exact ⟨r, e, o.imp (fun _ x => x) (fun j _ _ hF => by simpa using hF)⟩

theorem insert_out (c : OCls α) (hr : c.reloc = true) (boom : Nat → Bool) {v : OVec α} {xs zs : List α} (h : Inv v xs zs) {i : Nat} (as : List α)
    (hi : i ≤ xs.length) (hn : Fits c.sz (xs.length + as.length)) (hb : c.blind = true ∨ xs.length + as.length ≤ zs.length) (n : Nat) :
    ∃ r, insert c boom i as v n = .ok r ∧ Out boom n (as.length + (xs.length - i) + as.length)
      (Keeps c zs.length (xs.take i ++ as ++ xs.drop i))
      (fun j => Keeps c zs.length (left c.dflt xs j (.insert i as))) r := by
  have hs := h.size
  have e1 := resize_out c hr boom h c.dflt hn hb n
  rw [show xs.length + as.length - xs.length = as.length by omega, List.take_of_length_le (by omega)] at e1
  let ws := xs ++ List.replicate as.length c.dflt
  have hwl : ws.length = xs.length + as.length := by simp [ws]
  let ws2 := ws.take (i + as.length) ++ xs.drop i
  have hw2 : ws2.length = xs.length + as.length := by simp [ws2, ws]; omega
  have hlast : ∀ (ys : List α) (j : Nat), j ≤ xs.length - i → lastOf (ws ++ ys) i (xs.length - i) j = xs.drop (xs.length - j) := by
    intro ys j hj
    rw [lastOf, show i + (xs.length - i) - j = xs.length - j by omega]
    simp only [ws]
    rw [List.append_assoc, List.drop_append_of_le_length (by omega), List.take_append_of_le_length (by simp; omega),
      List.take_of_length_le (by simp; omega)]
  have hmoved : ∀ j, j ≤ xs.length - i → laid ws (i + as.length + (xs.length - i) - j) (xs.drop (xs.length - j))
      = ws.take (xs.length + as.length - j) ++ xs.drop (xs.length - j) := by
    intro j hj
    rw [laid, show i + as.length + (xs.length - i) - j = xs.length + as.length - j by omega,
      List.drop_eq_nil_of_le (as := ws) (i := xs.length + as.length - j + (xs.drop (xs.length - j)).length) (by rw [hwl, List.length_drop]; omega), List.append_nil]
  have hfill : ∀ k, k ≤ as.length → laid ws2 i (as.take k) = xs.take i ++ as.take k ++ (ws.take (i + as.length)).drop (i + k) ++ xs.drop i := by
    intro k hk
    have l1 : (ws.take (i + as.length)).length = i + as.length := by simp [hwl]; omega
    have l2 : (as.take k).length = k := by simp; omega
    simp only [laid, ws2]
    rw [l2, List.take_append_of_le_length (by omega), List.drop_append_of_le_length (by omega), List.take_take, Nat.min_eq_left (by omega)]
    simp only [ws]
    rw [List.take_append_of_le_length hi]
    simp only [List.append_assoc]
  have k2 : ∀ v', (Keeps c zs.length ws v' ∧ xs.length + as.length ≤ v'.alloc) →
      ∃ r, andThen (copyBack c boom i (i + as.length) (xs.length - i)) (fill c boom i as) v' (n + as.length) = .ok r ∧
        Out boom (n + as.length) ((xs.length - i) + as.length) (Keeps c zs.length (xs.take i ++ as ++ xs.drop i))
          (fun j v' => if j < xs.length - i then Keeps c zs.length (ws.take (xs.length + as.length - j) ++ xs.drop (xs.length - j)) v'
            else Keeps c zs.length (xs.take i ++ as.take (j - (xs.length - i)) ++
              (ws.take (i + as.length)).drop (i + (j - (xs.length - i))) ++ xs.drop i) v') r := by
    rintro v' ⟨⟨zs1, i1, l1⟩, a1⟩
    obtain ⟨ys, ez⟩ := i1.pre
    have hle := i1.le
    obtain ⟨r, e, d⟩ := copyBack_ok c boom (xs.length - i) zs1 v' i (i + as.length) (n + as.length) i1.blk (by omega) (by omega)
    subst ez
    have st : ∀ j v'', j ≤ xs.length - i → Same v' v'' → Blk v'' (laid (ws ++ ys) (i + as.length + (xs.length - i) - j)
        (lastOf (ws ++ ys) i (xs.length - i) j)) → Keeps c zs.length (ws.take (xs.length + as.length - j) ++ xs.drop (xs.length - j)) v'' := by
      intro j v'' hj hsm hbl
      rw [hlast ys j hj] at hbl
      rw [← hmoved j hj]
      exact keeps_laid hbl (by rw [hsm.1, i1.size]) (by simp; omega) l1
    have o1 : Out boom (n + as.length) (xs.length - i) (fun v'' => Keeps c zs.length ws2 v'' ∧ xs.length + as.length ≤ v''.alloc)
        (fun j => Keeps c zs.length (ws.take (xs.length + as.length - j) ++ xs.drop (xs.length - j))) r := by
      refine d.out.imp ?_ ?_
      · rintro v'' ⟨hsm, hbl⟩
        have := st _ v'' (Nat.le_refl _) hsm hbl
        rw [show xs.length + as.length - (xs.length - i) = i + as.length by omega, show xs.length - (xs.length - i) = i by omega] at this
        exact ⟨this, by rw [hsm.2]; exact a1⟩
      · rintro j v'' hj ⟨hsm, hbl⟩
        exact st j v'' (Nat.le_of_lt hj) hsm hbl
    refine out_seq (F2 := fun k => Keeps c zs.length (xs.take i ++ as.take k ++ (ws.take (i + as.length)).drop (i + k) ++ xs.drop i))
      ⟨r, e, o1⟩ ?_
    rintro v'' ⟨⟨zs2, i2, l2⟩, a2⟩
    obtain ⟨ys2, ez2⟩ := i2.pre
    have hle2 := i2.le
    obtain ⟨r2, e2, d2⟩ := fill_ok c boom as zs2 v'' i (n + as.length + (xs.length - i)) i2.blk (by omega) (by omega) (.inr (by omega))
    subst ez2
    have st2 : ∀ k v3, k ≤ as.length → Same v'' v3 → Blk v3 (laid (ws2 ++ ys2) i (as.take k)) →
        Keeps c zs.length (xs.take i ++ as.take k ++ (ws.take (i + as.length)).drop (i + k) ++ xs.drop i) v3 := by
      intro k v3 hk hsm hbl
      rw [← hfill k hk]
      exact keeps_laid hbl (by rw [hsm.1, i2.size]) (by simp [hw2]; omega) l2
    refine ⟨r2, e2, d2.out.imp ?_ ?_⟩
    · rintro v3 ⟨hsm, hbl⟩
      have := st2 _ v3 (Nat.le_refl _) hsm hbl
      rw [List.take_of_length_le (l := as) (Nat.le_refl _), List.drop_eq_nil_of_le (as := ws.take (i + as.length)) (i := i + as.length) (by simp; omega),
        List.append_nil] at this
      exact this
    · rintro k v3 hk ⟨hsm, hbl⟩
      exact st2 k v3 (Nat.le_of_lt hk) hsm hbl
  have := out_seq e1 k2
  rw [insert, hs]
  obtain ⟨r, e, o⟩ := this
  rw [← Nat.add_assoc] at o
  refine ⟨r, e, o.imp (fun _ x => x) ?_⟩
  intro j v' hj hF
  simp only [left]
  split at hF
  · rename_i h1
    rw [if_pos h1]; exact hF
  · rename_i h1
    rw [if_neg h1]
    split at hF
    · rename_i h2
      rw [if_pos (by omega)]; exact hF
    · rename_i h2
      rw [if_neg (by omega)]; exact hF

theorem resize_shrink (c : OCls α) (boom : Nat → Bool) {v : OVec α} {s : Nat} (a : α) (h1 : s ≤ v.size) (h2 : s ≤ v.alloc) (n : Nat) :
    resize c boom s a v n = .ok ⟨{ v with size := s }, n, false⟩ := by
  simp [resize, andThen, lift, setSize, OVec.reserve, h2, show ¬ v.size < s by omega]

theorem erase_out (c : OCls α) (boom : Nat → Bool) {v : OVec α} {xs zs : List α} (h : Inv v xs zs) {f l : Nat}
    (h1 : f < l) (h2 : l < xs.length) (n : Nat) :
    ∃ r, erase c boom f l v n = .ok r ∧ Out boom n (xs.length - l) (Keeps c zs.length (xs.take f ++ xs.drop l))
      (fun j => Keeps c zs.length (left c.dflt xs j (.erase f l))) r := by
  have hs := h.size
  have hle := h.le
  obtain ⟨ys, ez⟩ := h.pre
  obtain ⟨r, e, d⟩ := copyFwd_ok c boom (xs.length - l) zs v l f n h.blk (by omega) (by omega)
  subst ez
  have hd : ∀ j, j ≤ xs.length - l → ((xs ++ ys).drop l).take j = (xs.drop l).take j := by
    intro j hj
    rw [List.drop_append_of_le_length (by omega), List.take_append_of_le_length (by simp; omega)]
  have st : ∀ j v', j ≤ xs.length - l → Same v v' → Blk v' (laid (xs ++ ys) f (((xs ++ ys).drop l).take j)) →
      Keeps c (xs ++ ys).length (xs.take f ++ (xs.drop l).take j ++ xs.drop (f + j)) v' := by
    intro j v' hj hsm hbl
    rw [hd j hj] at hbl
    have hlen : ((xs.drop l).take j).length = j := by simp; omega
    have := keeps_laid (c := c) hbl (by rw [hsm.1, hs]) (by rw [hlen]; omega) (fun _ => rfl)
    rw [laid, hlen] at this
    exact this
  have o1 : Out boom n (xs.length - l)
      (fun v' => Keeps c (xs ++ ys).length (xs.take f ++ (xs.drop l).take (xs.length - l) ++ xs.drop (f + (xs.length - l))) v')
      (fun j => Keeps c (xs ++ ys).length (xs.take f ++ (xs.drop l).take j ++ xs.drop (f + j))) r :=
    d.out.imp (fun v' hv => st _ v' (Nat.le_refl _) hv.1 hv.2) (fun j v' hj hv => st j v' (Nat.le_of_lt hj) hv.1 hv.2)
  have := out_seq (w2 := 0) (b := resize c boom (v.size - (l - f)) c.dflt) (D2 := Keeps c (xs ++ ys).length (xs.take f ++ xs.drop l))
    (F2 := fun _ _ => False) ⟨r, e, o1⟩ (by
      rintro v' ⟨zs', i', l'⟩
      have hlw : (xs.take f ++ (xs.drop l).take (xs.length - l) ++ xs.drop (f + (xs.length - l))).length = xs.length := by simp; omega
      have hs' := i'.size
      have ho := i'.blk.objs
      have hle' := i'.le
      rw [hlw] at hs' hle'
      refine ⟨_, resize_shrink c boom c.dflt (by omega) (by omega) _, rfl, rfl, zs', ⟨i'.blk.congr rfl rfl, ?_, ?_⟩, l'⟩
      · simp; omega
      · obtain ⟨ys', ez'⟩ := i'.pre
        rw [List.take_of_length_le (l := xs.drop l) (by simp)] at ez'
        exact ⟨_, by rw [ez', List.append_assoc]⟩)
  obtain ⟨r', e', o'⟩ := this
  rw [erase]
  rw [hs] at e' ⊢
  refine ⟨r', e', ?_⟩
  rw [Nat.add_zero] at o'
  exact o'.imp (fun _ x => x) (fun j v' hj hF => by rw [if_pos hj] at hF; exact hF)

theorem assign_out (c : OCls α) (hr : c.reloc = true) (boom : Nat → Bool) {v : OVec α} {xs zs : List α} (h : Inv v xs zs) (as : List α)
    (hn : Fits c.sz as.length) (hb : c.blind = true ∨ as.length ≤ zs.length) (n : Nat) :
    ∃ r, assign c boom as v n = .ok r ∧ Out boom n ((as.length - xs.length) + as.length) (Keeps c zs.length as)
      (fun j => Keeps c zs.length (left c.dflt xs j (.assign as))) r := by
  have e1 := resize_out c hr boom h c.dflt hn hb n
  let ws := xs.take as.length ++ List.replicate (as.length - xs.length) c.dflt
  have hwl : ws.length = as.length := by simp [ws]; omega
  have := out_seq (w2 := as.length) (b := fill c boom 0 as) (D2 := Keeps c zs.length as)
    (F2 := fun k => Keeps c zs.length (as.take k ++ ws.drop k)) e1 (by
      rintro v' ⟨⟨zs', i', l'⟩, a'⟩
      have hle' : ws.length ≤ zs'.length := i'.le
      obtain ⟨ys, ez⟩ := i'.pre
      obtain ⟨r2, e2, d2⟩ := fill_ok c boom as zs' v' 0 (n + (as.length - xs.length)) i'.blk (by omega) (by omega) (.inr (by omega))
      subst ez
      have st : ∀ k v3, k ≤ as.length → Same v' v3 → Blk v3 (laid (ws ++ ys) 0 (as.take k)) → Keeps c zs.length (as.take k ++ ws.drop k) v3 := by
        intro k v3 hk hsm hbl
        have hlen : (as.take k).length = k := by simp; omega
        have := keeps_laid (c := c) hbl (by rw [hsm.1, i'.size]) (by rw [hlen]; omega) l'
        rw [laid, hlen, List.take_zero, List.nil_append, Nat.zero_add] at this
        exact this
      refine ⟨r2, e2, d2.out.imp ?_ ?_⟩
      · rintro v3 ⟨hsm, hbl⟩
        have := st _ v3 (Nat.le_refl _) hsm hbl
        rw [List.take_of_length_le (Nat.le_refl _), List.drop_eq_nil_of_le (by omega), List.append_nil] at this
        exact this
      · rintro k v3 hk ⟨hsm, hbl⟩
        exact st k v3 (Nat.le_of_lt hk) hsm hbl)
  obtain ⟨r, e, o⟩ := this
  refine ⟨r, e, o.imp (fun _ x => x) ?_⟩
  intro j v' hj hF
  simp only [left]
  split at hF
  · rename_i h1
    rw [if_pos h1]; exact hF
  · rename_i h1
    rw [if_neg h1]; exact hF

/-- One copy that succeeds. -/
theorem pushBack_out (c : OCls α) (hr : c.reloc = true) (boom : Nat → Bool) {v : OVec α} {xs zs : List α} (h : Inv v xs zs) (a : α)
    (hn : Fits c.sz (xs.length + 1)) (hb : c.blind = true ∨ xs.length + 1 ≤ zs.length) (n : Nat) :
    ∃ v' zs', pushBack c boom a v n = .ok ⟨v', n + 1, boom n⟩ ∧ v'.size = xs.length + 1 ∧ Blk v' zs' ∧ xs.length + 1 ≤ v'.alloc ∧
      zs' = (if boom n then zs else laid zs xs.length [a]) := by
  obtain ⟨v1, e1, b1, a1, s1, -, -⟩ := reserve_blk c hr h.blk hn
  have hs := h.size
  have hle := h.le
  obtain ⟨r, e, sm, en, et, bl⟩ := assign1_ok c boom (b1.congr (v' := { v1 with size := v1.size + 1 }) rfl rfl) (i := xs.length) a n hle
    (by show xs.length < v1.alloc; omega) (hb.imp id (by omega))
  refine ⟨r.vec, _, ?_, ?_, bl, by rw [sm.2]; exact a1, rfl⟩
  · simp only [pushBack, andThen, lift, setSize, hs, e1, Res.ok_bind, s1, Bool.false_eq_true, if_false]
    rw [s1, hs] at e
    rw [e]
    cases r
    simp_all
  · rw [sm.1]
    show v1.size + 1 = _
    omega

theorem out_step {boom : Nat → Bool} {n w : Nat} {c : OCls α} {m : Nat} {ys : List α} {F : Nat → List α} {v : OVec α} {a : Act α} {ret : VRet α}
    (h : ∃ r, a v n = .ok r ∧ Out boom n w (Keeps c m ys) (fun j => Keeps c m (F j)) r) :
    ∃ v' zs', (do .ok (caught (← a v n) ret) : Res (OVec α × Nat × TRet α)) = .ok (v', (match firstFault boom n w with
        | none => (n + w, .ret ret) | some j => (n + j + 1, .thrown))) ∧
      Inv v' (match firstFault boom n w with | none => ys | some j => F j) zs' ∧ (c.blind = false → zs'.length = m) := by
  obtain ⟨r, e, o⟩ := h
  unfold Out at o
  cases hf : firstFault boom n w with
  | none =>
    rw [hf] at o
    obtain ⟨o1, o2, zs', i', l'⟩ := o
    exact ⟨r.vec, zs', by rw [e]; simp [caught, o1, o2], i', l'⟩
  | some j =>
    rw [hf] at o
    obtain ⟨o1, o2, zs', i', l'⟩ := o
    exact ⟨r.vec, zs', by rw [e]; simp [caught, o1, o2], i', l'⟩

theorem thrStep_eq (dflt : α) (boom : Nat → Bool) (xs : List α) (n : Nat) (op : Op α) {w : Nat} (hw : copies xs op = w) {ys : List α} {ret : VRet α}
    (hy : after dflt xs op = ys) (hret : reported dflt xs op = ret) :
    thrStep dflt boom xs n op = ((match firstFault boom n w with | none => ys | some j => left dflt xs j op),
      (match firstFault boom n w with | none => (n + w, .ret ret) | some j => (n + j + 1, .thrown))) := by
  subst hw hy hret
  rw [thrStep]
  cases firstFault boom n (copies xs op) <;> rfl

theorem thrStep_quiet (dflt : α) (boom : Nat → Bool) (xs : List α) (n : Nat) (op : Op α) (hw : copies xs op = 0) :
    thrStep dflt boom xs n op = (after dflt xs op, n, .ret (reported dflt xs op)) := by
  rw [thrStep, hw]; rfl

theorem step_ok (c : OCls α) (hr : c.reloc = true) (boom : Nat → Bool) {v : OVec α} {xs zs : List α} (h : Inv v xs zs) (op : Op α) (n : Nat)
    (hp : VPre c.sz (xs, []) (seqOp op)) (hb : c.blind = true ∨ (after c.dflt xs op).length ≤ zs.length) (hq : IsPush op → boom n = false) :
    ∃ v' zs', step c boom v n op = .ok (v', (thrStep c.dflt boom xs n op).2) ∧ Inv v' (thrStep c.dflt boom xs n op).1 zs' ∧
      (c.blind = false → zs'.length = readyAfter zs.length op) := by
  have hs := h.size
  have hle := h.le
  cases op with
  | pushBack a =>
    have hq : boom n = false := hq trivial
    obtain ⟨v', zs', e, s, b, -, ez⟩ := pushBack_out c hr boom h a hp (hb.imp id (by simp [after, vstep, seqOp])) n
    simp only [hq, Bool.false_eq_true, if_false] at ez e
    obtain ⟨ys, ey⟩ := h.pre
    refine ⟨v', zs', ?_, ⟨b, ?_, ?_⟩, ?_⟩
    · rw [step, e]; simp [caught, thrStep, copies, firstFault, hq, reported, seqOp, vstep]
    · simp [thrStep, copies, firstFault, hq, after, seqOp, vstep, s]
    · subst ey
      refine ⟨(xs ++ ys).drop (xs.length + 1), ?_⟩
      rw [ez]
      simp [thrStep, copies, firstFault, hq, after, seqOp, vstep, laid]
    · intro hbf
      have := hb.resolve_left (by simp [hbf])
      simp [after, vstep, seqOp] at this
      rw [ez, laid_len (by simp; omega)]; rfl
  | emplaceBack a =>
    have hq : boom n = false := hq trivial
    obtain ⟨v', zs', e, s, b, -, ez⟩ := pushBack_out c hr boom (v := { v with made := v.made + 1 }) ⟨h.blk.congr rfl rfl, h.size, h.pre⟩ a hp
      (hb.imp id (by simp [after, vstep, seqOp])) n
    simp only [hq, Bool.false_eq_true, if_false] at ez e
    obtain ⟨ys, ey⟩ := h.pre
    refine ⟨v', zs', ?_, ⟨b, ?_, ?_⟩, ?_⟩
    · rw [step, emplaceBack]
      simp [andThen, lift, e, caught, thrStep, copies, firstFault, hq, reported, seqOp, vstep]
    · simp [thrStep, copies, firstFault, hq, after, seqOp, vstep, s]
    · subst ey
      refine ⟨(xs ++ ys).drop (xs.length + 1), ?_⟩
      rw [ez]
      simp [thrStep, copies, firstFault, hq, after, seqOp, vstep, laid]
    · intro hbf
      have := hb.resolve_left (by simp [hbf])
      simp [after, vstep, seqOp] at this
      rw [ez, laid_len (by simp; omega)]; rfl
  | popBack =>
    have hne : xs ≠ [] := hp
    have hpos : 0 < xs.length := List.length_pos_iff.mpr hne
    obtain ⟨ys, ez⟩ := h.pre
    have hg : readO c v.data (v.size - 1) = .ok (xs.getLast hne) := by
      rw [hs, readO_blk c h.blk (by omega), List.getLast_eq_getElem]
      subst ez
      rw [List.getElem_append_left (by omega)]
    have ht : (thrStep c.dflt boom xs n .popBack).1 = xs.dropLast := by
      cases hbn : boom n <;> simp [thrStep, copies, firstFault, hbn, after, seqOp, vstep, left]
    refine ⟨{ v with size := v.size - 1 }, zs, ?_, ⟨h.blk.congr rfl rfl, ?_, ?_⟩, fun _ => rfl⟩
    · rw [step, popBack, if_neg (by omega), hg]
      cases hbn : boom n <;>
        simp [caught, thrStep, copies, firstFault, hbn, reported, seqOp, vstep, List.getLast?_eq_some_getLast hne]
    · rw [ht]; simp [hs]
    · rw [ht]
      refine ⟨[xs.getLast hne] ++ ys, ?_⟩
      rw [ez, ← List.append_assoc, List.dropLast_concat_getLast]
  | insert i as =>
    by_cases hi : i ≤ xs.length
    · have ea : after c.dflt xs (.insert i as) = xs.take i ++ as ++ xs.drop i := by simp [after, seqOp, vstep, hi]
      have er : reported c.dflt xs (.insert i as) = .done := by simp [reported, seqOp, vstep, hi]
      have hlen : (xs.take i ++ as ++ xs.drop i).length = xs.length + as.length := by simp; omega
      rw [ea, hlen] at hb
      rw [thrStep_eq c.dflt boom xs n _ (by simp [copies, hi]; rfl) ea er, step, if_neg (by omega)]
      exact out_step (F := fun j => left c.dflt xs j (.insert i as)) (insert_out c hr boom h as hi hp hb n)
    · rw [thrStep_quiet _ _ _ _ _ (by simp [copies, hi])]
      exact ⟨v, zs, by rw [step, if_pos (by omega)]; simp [reported, seqOp, vstep, hi], by simpa [after, seqOp, vstep, hi] using h, fun _ => rfl⟩
  | erase f l =>
    by_cases hi : f < l ∧ l < xs.length
    · have ea : after c.dflt xs (.erase f l) = xs.take f ++ xs.drop l := by simp [after, seqOp, vstep, hi]
      have er : reported c.dflt xs (.erase f l) = .done := by simp [reported, seqOp, vstep, hi]
      rw [thrStep_eq c.dflt boom xs n _ (by simp [copies, hi]; rfl) ea er, step, if_neg (by omega)]
      exact out_step (F := fun j => left c.dflt xs j (.erase f l)) (erase_out c boom h hi.1 hi.2 n)
    · rw [thrStep_quiet _ _ _ _ _ (by simp [copies, hi])]
      exact ⟨v, zs, by rw [step, if_pos (by omega)]; simp [reported, seqOp, vstep, hi], by simpa [after, seqOp, vstep, hi] using h, fun _ => rfl⟩
  | resize s a =>
    have hlen : (after c.dflt xs (.resize s a)).length = s := by simp [after, seqOp, vstep]; omega
    rw [hlen] at hb
    rw [thrStep_eq c.dflt boom xs n _ rfl rfl rfl, step]
    obtain ⟨r, e, o⟩ := resize_out c hr boom h a hp hb n
    exact out_step (F := fun j => left c.dflt xs j (.resize s a)) ⟨r, e, o.imp (fun _ x => x.1) (fun _ _ _ x => x)⟩
  | reserve s =>
    obtain ⟨v', e, b, -, s', -, -⟩ := reserve_blk c hr h.blk hp
    rw [thrStep_quiet _ _ _ _ _ rfl]
    exact ⟨v', zs, by rw [step, e]; rfl, ⟨b, by rw [s']; exact hs, h.pre⟩, fun _ => rfl⟩
  | assign as =>
    rw [thrStep_eq c.dflt boom xs n _ rfl rfl rfl, step]
    exact out_step (F := fun j => left c.dflt xs j (.assign as)) (assign_out c hr boom h as hp hb n)
  | clear =>
    rw [thrStep_quiet _ _ _ _ _ rfl]
    exact ⟨clear v, [], rfl, ⟨blk_null rfl rfl, rfl, ⟨[], rfl⟩⟩, fun _ => rfl⟩
  | at_ i =>
    rw [thrStep_quiet _ _ _ _ _ rfl]
    exact ⟨v, zs, by rw [step, at_inv c h i]; rfl, h, fun _ => rfl⟩

theorem run_ok (c : OCls α) (hr : c.reloc = true) (boom : Nat → Bool) : ∀ (ops : List (Op α)) (v : OVec α) (xs zs : List α) (n : Nat), Inv v xs zs →
    ThrPres c.sz c.dflt boom xs n ops → (c.blind = true ∨ ThrNeverAbove c.dflt boom zs.length xs n ops) →
    ∃ v' zs', run c boom v n ops = .ok (v', (thrRun c.dflt boom xs n ops).2) ∧ Inv v' (thrRun c.dflt boom xs n ops).1 zs' := by
  intro ops
  induction ops with
  | nil => intro v xs zs n h _ _; exact ⟨v, zs, rfl, h⟩
  | cons op ops ih =>
    intro v xs zs n h hp hw
    obtain ⟨v1, zs1, e1, i1, l1⟩ := step_ok c hr boom h op n hp.1 (hw.imp id And.left) hp.2.1
    have hw1 : c.blind = true ∨ ThrNeverAbove c.dflt boom zs1.length (thrStep c.dflt boom xs n op).1 (thrStep c.dflt boom xs n op).2.1 ops := by
      cases hb : c.blind with
      | true => exact .inl rfl
      | false =>
        refine .inr ?_
        rw [l1 hb]
        have := (hw.resolve_left (by simp [hb])).2
        cases op <;> exact this
    obtain ⟨v2, zs2, e2, i2⟩ := ih v1 _ zs1 _ i1 hp.2.2 hw1
    refine ⟨v2, zs2, ?_, i2⟩
    rw [run, e1]
    simp only [Res.ok_bind]
    rw [e2]
    rfl

theorem mem_after {dflt : α} {xs : List α} {op : Op α} {x : α} (h : x ∈ after dflt xs op) : x ∈ xs ∨ x = dflt ∨ x ∈ given op := by
  cases op <;> simp only [after, seqOp, vstep, given] at h ⊢
  case pushBack a => simp at h ⊢; tauto
  case emplaceBack a => simp at h ⊢; tauto
  case popBack => exact .inl (List.dropLast_subset _ h)
  case insert i as =>
    split at h
    · simp only [List.mem_append] at h
      rcases h with (h | h) | h
      · exact .inl (List.mem_of_mem_take h)
      · exact .inr (.inr h)
      · exact .inl (List.mem_of_mem_drop h)
    · exact .inl h
  case erase f l =>
    split at h
    · simp only [List.mem_append] at h
      rcases h with h | h
      · exact .inl (List.mem_of_mem_take h)
      · exact .inl (List.mem_of_mem_drop h)
    · exact .inl h
  case resize n a =>
    simp only [List.mem_append, List.mem_replicate] at h
    rcases h with h | h
    · exact .inl (List.mem_of_mem_take h)
    · exact .inr (.inr (by simp [h.2]))
  case reserve n => exact .inl h
  case assign as => exact .inr (.inr h)
  case clear => simp at h
  case at_ i => exact .inl h

theorem mem_padded {dflt x : α} {xs : List α} {k m : Nat} (h : x ∈ (xs ++ List.replicate k dflt).take m) : x ∈ xs ∨ x = dflt := by
  have := List.mem_of_mem_take h
  simp only [List.mem_append, List.mem_replicate] at this
  exact this.imp id And.right

theorem mem_left {dflt : α} {xs : List α} {j : Nat} {op : Op α} {x : α} (h : x ∈ left dflt xs j op) : x ∈ xs ∨ x = dflt ∨ x ∈ given op := by
  cases op <;> simp only [left, given] at h ⊢
  case pushBack a => exact .inl h
  case emplaceBack a => exact .inl h
  case popBack => exact .inl (List.dropLast_subset _ h)
  case insert i as =>
    split at h
    · exact .inl h
    · split at h
      · rw [List.mem_append] at h
        rcases h with h | h
        · exact (mem_padded h).imp id .inl
        · exact .inl (List.mem_of_mem_drop h)
      · rw [List.mem_append, List.mem_append, List.mem_append] at h
        rcases h with ((h | h) | h) | h
        · exact .inl (List.mem_of_mem_take h)
        · exact .inr (.inr (List.mem_of_mem_take h))
        · exact (mem_padded (List.mem_of_mem_drop h)).imp id .inl
        · exact .inl (List.mem_of_mem_drop h)
  case erase f l =>
    rw [List.mem_append, List.mem_append] at h
    rcases h with (h | h) | h
    · exact .inl (List.mem_of_mem_take h)
    · exact .inl (List.mem_of_mem_drop (List.mem_of_mem_take h))
    · exact .inl (List.mem_of_mem_drop h)
  case resize n a => exact .inl h
  case reserve n => exact .inl h
  case assign as =>
    split at h
    · exact .inl h
    · rw [List.mem_append] at h
      rcases h with h | h
      · exact .inr (.inr (List.mem_of_mem_take h))
      · have := List.mem_of_mem_drop h
        simp only [List.mem_append, List.mem_replicate] at this
        rcases this with h | h
        · exact .inl (List.mem_of_mem_take h)
        · exact .inr (.inl h.2)
  case clear => exact .inl h
  case at_ i => exact .inl h

theorem mem_thrStep {dflt : α} {boom : Nat → Bool} {xs : List α} {n : Nat} {op : Op α} {x : α} (h : x ∈ (thrStep dflt boom xs n op).1) :
    x ∈ xs ∨ x = dflt ∨ x ∈ given op := by
  rw [thrStep] at h
  split at h
  · exact mem_after h
  · exact mem_left h

theorem mem_thrRun {dflt : α} {boom : Nat → Bool} : ∀ (ops : List (Op α)) {xs : List α} {n : Nat} {x : α}, x ∈ (thrRun dflt boom xs n ops).1 →
    x ∈ xs ∨ x = dflt ∨ ∃ op ∈ ops, x ∈ given op := by
  intro ops
  induction ops with
  | nil => intro xs n x h; exact .inl h
  | cons op ops ih =>
    intro xs n x h
    rcases ih h with h | h | ⟨op', h1, h2⟩
    · rcases mem_thrStep h with h | h | h
      · exact .inl h
      · exact .inr (.inl h)
      · exact .inr (.inr ⟨op, by simp, h⟩)
    · exact .inr (.inl h)
    · exact .inr (.inr ⟨op', by simp [h1], h2⟩)

theorem thrRun_append (dflt : α) (boom : Nat → Bool) : ∀ (ops ops' : List (Op α)) (xs : List α) (n : Nat),
    thrRun dflt boom xs n (ops ++ ops') =
      ((thrRun dflt boom (thrRun dflt boom xs n ops).1 (thrRun dflt boom xs n ops).2.1 ops').1,
       (thrRun dflt boom (thrRun dflt boom xs n ops).1 (thrRun dflt boom xs n ops).2.1 ops').2.1,
       (thrRun dflt boom xs n ops).2.2 ++ (thrRun dflt boom (thrRun dflt boom xs n ops).1 (thrRun dflt boom xs n ops).2.1 ops').2.2) := by
  intro ops
  induction ops with
  | nil => intro ops' xs n; rfl
  | cons op ops ih => intro ops' xs n; simp only [List.cons_append, thrRun, ih]

end Eni.OThr
