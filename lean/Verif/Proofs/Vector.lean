import Verif.Spec.VectorSpec
/-!
# Simulation of sequences by `Vector`

Helper lemmas, no property statements.
-/
namespace Eni
open Spec
namespace Vec
variable {α β γ : Type}

def cells : VData α → List (Option α)
  | .buf c => c
  | _ => []

/-- `v` holds the sequence `xs` -/
structure Rep (v : Vec α) (xs : List α) : Prop where
  size_eq : v.size = xs.length
  nd : v.data ≠ .dangling
  le_alloc : xs.length ≤ v.alloc
  cap : v.alloc ≤ (cells v.data).length
  pre : ∃ rest, cells v.data = xs.map some ++ rest

@[simp] theorem andThen_val (v : Vec α) (b : β) (f : Vec α → β → Res (Vec α × Ret γ)) :
    andThen (.ok (v, .val b)) f = f v b := rfl
@[simp] theorem andThen_exc (v : Vec α) (e : Exc) (f : Vec α → β → Res (Vec α × Ret γ)) :
    andThen (.ok (v, .exc e)) f = .ok (v, .exc e) := rfl

theorem rep_empty : Rep (empty : Vec α) [] :=
  ⟨rfl, by simp [empty], by simp, by simp [empty], ⟨[], rfl⟩⟩

theorem store_ok {d : VData α} (hd : d ≠ .dangling) {a b c ys : List (Option α)} (h : cells d = a ++ b ++ c)
    (hl : b.length = ys.length) : ∃ d', store d a.length ys = .ok d' ∧ d' ≠ .dangling ∧ cells d' = a ++ ys ++ c := by
  unfold store
  split
  · rename_i hy
    subst hy
    have hb : b = [] := List.eq_nil_of_length_eq_zero (by simpa using hl)
    subst hb
    exact ⟨d, rfl, hd, h⟩
  · rename_i hy
    have hpos : 0 < ys.length := List.length_pos_iff.mpr hy
    cases d with
    | null => simp [cells] at h; obtain ⟨_, h2, _⟩ := h; subst h2; simp at hl; omega
    | dangling => exact absurd rfl hd
    | buf cs =>
      simp only [cells] at h
      subst h
      refine ⟨.buf (a ++ ys ++ c), ?_, by simp, rfl⟩
      simp only
      rw [if_pos (by simp; omega)]
      congr 2
      unfold overwrite
      rw [List.append_assoc, List.append_assoc, List.take_left, ← hl, ← List.append_assoc a b c, ← List.length_append,
        List.drop_left, List.append_assoc]

theorem readRange_ok {d : VData α} (hd : d ≠ .dangling) {a b c : List (Option α)} (h : cells d = a ++ b ++ c) {i j : Nat}
    (hi : i = a.length) (hj : j = a.length + b.length) : readRange d i j = .ok b := by
  subst hi hj
  unfold readRange
  split
  · rename_i hle
    have hb : b = [] := List.eq_nil_of_length_eq_zero (by omega)
    subst hb
    simp
  · cases d with
    | null => simp [cells] at h; obtain ⟨_, h2, _⟩ := h; subst h2; simp at *
    | dangling => exact absurd rfl hd
    | buf cs =>
      simp only [cells] at h
      subst h
      simp only
      rw [if_pos (by simp), ← List.length_append, List.take_left, List.drop_left]

theorem readCell_ok {d : VData α} (hd : d ≠ .dangling) {xs : List α} {rest : List (Option α)} (h : cells d = xs.map some ++ rest)
    {i : Nat} (hi : i < xs.length) : readCell d i = .ok xs[i] := by
  cases d with
  | null => simp [cells] at h; obtain ⟨h2, _⟩ := h; subst h2; simp at hi
  | dangling => exact absurd rfl hd
  | buf cs =>
    simp only [cells] at h
    subst h
    simp only [readCell]
    rw [List.getElem?_append_left (by simpa using hi)]
    simp [hi]

/-! reserve -/

theorem growLoop_ok {n : Nat} (hn : n ≤ 9223372036854775808) : ∀ (k t : Nat), 0 < t → n ≤ t * 2 ^ k → t < 2 * n → ∀ fuel, k + 1 ≤ fuel →
    ∃ r, growLoop n fuel t = .ok r ∧ n ≤ r ∧ r < 2 * n := by
  intro k
  induction k with
  | zero =>
    intro t ht hk ht2 fuel hf
    obtain ⟨f, rfl⟩ : ∃ f, fuel = f + 1 := ⟨fuel - 1, by omega⟩
    refine ⟨t, ?_, by omega, ht2⟩
    unfold growLoop
    rw [if_neg (by omega)]
  | succ k ih =>
    intro t ht hk ht2 fuel hf
    obtain ⟨f, rfl⟩ : ∃ f, fuel = f + 1 := ⟨fuel - 1, by omega⟩
    unfold growLoop
    by_cases hlt : t < n
    · rw [if_pos ⟨hlt, by unfold maxSize; omega⟩, if_pos ht, w64_of_lt (by omega)]
      exact ih (t * 2) (by omega) (by rw [Nat.mul_assoc, Nat.mul_comm 2, ← Nat.pow_succ]; exact hk) (by omega) f (by omega)
    · rw [if_neg (by omega)]
      exact ⟨t, rfl, by omega, ht2⟩

theorem growLoop_spec {n c : Nat} (hn : n ≤ 9223372036854775808) (hc : c < n) :
    ∃ r, growLoop n growFuel c = .ok r ∧ n ≤ r ∧ r < 2 * n := by
  by_cases h0 : c = 0
  · subst h0
    have : growLoop n growFuel 0 = growLoop n 191 1 := by
      show growLoop n (191 + 1) 0 = _
      rw [growLoop, if_pos ⟨hc, by decide⟩]; rfl
    rw [this]
    exact growLoop_ok hn 63 1 (by omega) (by omega) (by omega) 191 (by omega)
  · exact growLoop_ok hn 63 c (by omega) (by
      have : n ≤ 1 * 2 ^ 63 := by omega
      exact Nat.le_trans this (Nat.mul_le_mul_right _ (by omega))) (by omega) growFuel (by unfold growFuel; omega)

theorem fits_le {cfg : Cfg α} {n : Nat} (h : Fits cfg.sz n) : n < 9223372036854775808 := by
  unfold Fits at h
  have := cfg.sz_pos
  have h2 : 1 * (2 * n) ≤ cfg.sz * (2 * n) := Nat.mul_le_mul_right _ this
  omega

theorem fits_mono {sz n m : Nat} (h : Fits sz n) (hm : m ≤ n) : Fits sz m := by
  unfold Fits at *
  have : sz * (2 * m) ≤ sz * (2 * n) := Nat.mul_le_mul_left _ (by omega)
  omega

theorem reserve_spec {cfg : Cfg α} {grant : Bool} {v : Vec α} {xs : List α} (R : Rep v xs) {n : Nat} (hn : Fits cfg.sz n) :
    (n ≤ v.alloc ∧ reserve cfg grant v n = .ok (v, .val false)) ∨
    (v.alloc < n ∧ ((grant = true ∧ ∃ v', reserve cfg grant v n = .ok (v', .val true) ∧ Rep v' xs ∧ v'.alloc = n) ∨
      (grant = false ∧ reserve cfg grant v n = .ok (v, .exc .noMemory)))) := by
  by_cases h : n ≤ v.alloc
  · left; exact ⟨h, by unfold reserve; rw [if_pos h]; rfl⟩
  right
  refine ⟨by omega, ?_⟩
  have hn63 := fits_le hn
  obtain ⟨t, ht, htn, ht2⟩ := growLoop_spec (c := v.alloc) (by omega : n ≤ 9223372036854775808) (by omega)
  have hle := R.le_alloc
  have hbytes : cfg.sz * t < 18446744073709551616 := by
    unfold Fits at hn
    have : cfg.sz * t ≤ cfg.sz * (2 * n) := Nat.mul_le_mul_left _ (by omega)
    omega
  have hpos := cfg.sz_pos
  have hdiv : cfg.sz * t / cfg.sz = t := Nat.mul_div_cancel_left _ hpos
  have hnz : cfg.sz * t ≠ 0 := Nat.mul_ne_zero (by omega) (by omega)
  have hunf : reserve cfg grant v n = (do
      match ← realloc cfg grant v.data (cfg.sz * t) with
      | (none, d) => throw { v with data := d } .noMemory
      | (some d, _) => ret { v with data := d, alloc := n } true) := by
    unfold reserve
    rw [if_neg h, if_neg (by unfold maxSize; omega), ht]
    simp only [Res.ok_bind]
    rw [if_neg (by unfold maxSize; omega), w64_of_lt hbytes]
    rfl
  rw [hunf]
  have hsz := R.size_eq
  obtain ⟨rest, hrest⟩ := R.pre
  cases hd : v.data with
  | dangling => exact absurd hd R.nd
  | null =>
    rw [hd] at hrest
    have hx : xs = [] := by simp [cells] at hrest; exact hrest.1
    subst hx
    cases grant with
    | true =>
      left
      refine ⟨rfl, ⟨.buf (List.replicate t none), v.size, n⟩, ?_, ⟨hsz, by simp, by simp, ?_, ⟨_, rfl⟩⟩, rfl⟩
      · simp [realloc, hdiv, ret]
      · simpa [cells] using htn
    | false =>
      right
      refine ⟨rfl, ?_⟩
      simp [realloc, throw, ← hd]
  | buf cs =>
    rw [hd] at hrest
    simp only [cells] at hrest
    cases grant with
    | true =>
      left
      refine ⟨rfl, ⟨.buf (cs.take t ++ List.replicate (t - cs.length) none), v.size, n⟩, ?_, ⟨hsz, by simp, ?_, ?_, ?_⟩, rfl⟩
      · simp [realloc, hdiv, ret, hnz]
      · simp only; omega
      · simp [cells]; omega
      · refine ⟨rest.take (t - xs.length) ++ List.replicate (t - cs.length) none, ?_⟩
        simp only [cells]
        rw [hrest, List.take_append, List.take_of_length_le (by simp; omega), List.length_map, List.append_assoc]
    | false =>
      right
      refine ⟨rfl, ?_⟩
      simp [realloc, throw, ← hd, hnz]

/-! stores at the level of sequences -/

theorem store_rep {v : Vec α} {a b c ys : List α} (R : Rep v (a ++ b ++ c)) (hl : b.length = ys.length) {i : Nat} (hi : i = a.length) :
    ∃ d, store v.data i (ys.map some) = .ok d ∧ Rep { v with data := d } (a ++ ys ++ c) := by
  subst hi
  obtain ⟨rest, hrest⟩ := R.pre
  obtain ⟨d, h1, h2, h3⟩ := store_ok R.nd (a := a.map some) (b := b.map some) (c := c.map some ++ rest) (ys := ys.map some)
    (by rw [hrest]; simp) (by simpa using hl)
  rw [List.length_map] at h1
  have hlen : (cells d).length = (cells v.data).length := by rw [h3, hrest]; simp; omega
  refine ⟨d, h1, ⟨?_, h2, ?_, ?_, ⟨rest, by rw [h3]; simp⟩⟩⟩
  · rw [show ({ v with data := d } : Vec α).size = v.size from rfl, R.size_eq]; simp; omega
  · have := R.le_alloc; simp at this ⊢; omega
  · have := R.cap; simp only; omega

theorem readRange_rep {v : Vec α} {a b c : List α} (R : Rep v (a ++ b ++ c)) {i j : Nat} (hi : i = a.length)
    (hj : j = a.length + b.length) : readRange v.data i j = .ok (b.map some) := by
  obtain ⟨rest, hrest⟩ := R.pre
  exact readRange_ok R.nd (a := a.map some) (b := b.map some) (c := c.map some ++ rest) (by rw [hrest]; simp) (by simpa using hi)
    (by simpa using hj)

theorem readCell_rep {v : Vec α} {xs : List α} (R : Rep v xs) {i : Nat} (hi : i < xs.length) : readCell v.data i = .ok xs[i] := by
  obtain ⟨rest, hrest⟩ := R.pre
  exact readCell_ok R.nd hrest hi

theorem extend_rep {v : Vec α} {xs ys : List α} (R : Rep v xs) (hl : xs.length + ys.length ≤ v.alloc) :
    ∃ d, store v.data v.size (ys.map some) = .ok d ∧ Rep { v with data := d, size := xs.length + ys.length } (xs ++ ys) := by
  obtain ⟨rest, hrest⟩ := R.pre
  have hcap := R.cap
  have hrl : ys.length ≤ rest.length := by
    have := congrArg List.length hrest; simp at this; omega
  obtain ⟨d, h1, h2, h3⟩ := store_ok R.nd (a := xs.map some) (b := rest.take ys.length) (c := rest.drop ys.length) (ys := ys.map some)
    (by rw [List.append_assoc, List.take_append_drop]; exact hrest) (by simp; omega)
  rw [List.length_map, ← R.size_eq] at h1
  refine ⟨d, h1, ⟨by simp, h2, by simpa using hl, ?_, ⟨rest.drop ys.length, by rw [h3]; simp⟩⟩⟩
  simp only
  rw [h3]
  have := congrArg List.length hrest
  simp at this ⊢
  omega

theorem shrink_rep {v : Vec α} {xs : List α} (R : Rep v xs) {n : Nat} (hn : n ≤ xs.length) : Rep { v with size := n } (xs.take n) := by
  obtain ⟨rest, hrest⟩ := R.pre
  have := R.le_alloc
  refine ⟨by simp; omega, R.nd, by simp; omega, R.cap, ⟨(xs.drop n).map some ++ rest, ?_⟩⟩
  show cells v.data = _
  rw [hrest, ← List.append_assoc, ← List.map_append, List.take_append_drop]

/-! operations -/

/-- the call has the given effect and result, or memory was refused and nothing changed -/
def Sim (grant : Bool) (v : Vec α) (x : Res (Vec α × Ret β)) (xs' : List α) (P : β → Prop) : Prop :=
  (∃ v' b, x = .ok (v', .val b) ∧ Rep v' xs' ∧ P b) ∨ (grant = false ∧ x = .ok (v, .exc .noMemory))

theorem Sim.andThen {grant : Bool} {v : Vec α} {x : Res (Vec α × Ret β)} {xs' xs'' : List α} {P : β → Prop} {Q : γ → Prop}
    {f : Vec α → β → Res (Vec α × Ret γ)} (h : Sim grant v x xs' P)
    (hf : ∀ v' b, Rep v' xs' → P b → ∃ v'' c, f v' b = .ok (v'', .val c) ∧ Rep v'' xs'' ∧ Q c) :
    Sim grant v (Vec.andThen x f) xs'' Q := by
  rcases h with ⟨v', b, rfl, R, hp⟩ | ⟨hg, rfl⟩
  · left
    obtain ⟨v'', c, h1, h2, h3⟩ := hf v' b R hp
    exact ⟨v'', c, h1, h2, h3⟩
  · right; exact ⟨hg, rfl⟩

variable {cfg : Cfg α} {grant : Bool} {v : Vec α} {xs : List α}

theorem reserve_sim (R : Rep v xs) {n : Nat} (hn : Fits cfg.sz n) : Sim grant v (reserve cfg grant v n) xs (fun _ => True) := by
  rcases reserve_spec (grant := grant) R hn with ⟨_, h⟩ | ⟨_, ⟨hg, v', h, R', _⟩ | ⟨hg, h⟩⟩
  · left; exact ⟨v, false, h, R, trivial⟩
  · left; exact ⟨v', true, h, R', trivial⟩
  · right; exact ⟨hg, h⟩

/-- `reserve` with the capacity reached, for arbitrary arguments -/
theorem reserve_sim' (R : Rep v xs) {n : Nat} (hn : Fits cfg.sz n) :
    (∃ v' m, reserve cfg grant v n = .ok (v', .val m) ∧ Rep v' xs ∧ n ≤ v'.alloc ∧ (m = false → v' = v) ∧ (m = true ↔ v.alloc < n)) ∨
    (grant = false ∧ reserve cfg grant v n = .ok (v, .exc .noMemory)) := by
  rcases reserve_spec (grant := grant) R hn with ⟨hle, h⟩ | ⟨hlt, ⟨hg, v', h, R', ha⟩ | ⟨hg, h⟩⟩
  · left; exact ⟨v, false, h, R, hle, fun _ => rfl, by simp; omega⟩
  · left; exact ⟨v', true, h, R', by omega, by simp, by simp; omega⟩
  · right; exact ⟨hg, h⟩

theorem resizeA_sim (R : Rep v xs) {n : Nat} (hn : Fits cfg.sz n) (a : α) :
    (∃ v' m, resizeA cfg grant v n (.val a) = .ok (v', .val m) ∧ Rep v' (xs.take n ++ List.replicate (n - xs.length) a) ∧
      (m = true ↔ v.alloc < n) ∧ n ≤ v'.alloc ∧ v.alloc ≤ v'.alloc) ∨
    (grant = false ∧ resizeA cfg grant v n (.val a) = .ok (v, .exc .noMemory)) := by
  have key : ∀ v' m, Rep v' xs → n ≤ v'.alloc → ∃ v'', (if n > v'.size then do
      let a ← readArg v' m (.val a)
      let d ← store v'.data v'.size (List.replicate (n - v'.size) (some a))
      ret { v' with data := d, size := n } m
    else ret { v' with size := n } m) = .ok (v'', .val m) ∧ Rep v'' (xs.take n ++ List.replicate (n - xs.length) a) ∧
      v''.alloc = v'.alloc := by
    intro v' m R' ha
    have hs := R'.size_eq
    by_cases h : n > v'.size
    · rw [if_pos h]
      have hrep : List.replicate (n - v'.size) (some a) = (List.replicate (n - v'.size) a).map some := by simp
      obtain ⟨d, h1, R2⟩ := extend_rep (ys := List.replicate (n - v'.size) a) R' (by simp; omega)
      refine ⟨{ v' with data := d, size := n }, ?_, ?_, rfl⟩
      · simp only [readArg, Res.ok_bind, hrep, h1]; rfl
      · rw [List.take_of_length_le (by omega), ← hs]
        have e : xs.length + (List.replicate (n - v'.size) a).length = n := by simp; omega
        rw [e] at R2
        exact R2
    · rw [if_neg h]
      refine ⟨{ v' with size := n }, rfl, ?_, rfl⟩
      have e : n - xs.length = 0 := by omega
      rw [e]
      simp only [List.replicate_zero, List.append_nil]
      exact shrink_rep R' (by omega)
  rcases reserve_spec (grant := grant) R hn with ⟨hle, h⟩ | ⟨hlt, ⟨hg, v', h, R', ha⟩ | ⟨hg, h⟩⟩
  · left
    obtain ⟨v'', h2, R2, h3⟩ := key v false R hle
    exact ⟨v'', false, by unfold resizeA; rw [h, andThen_val]; exact h2, R2, by simp; omega, by omega, by omega⟩
  · left
    obtain ⟨v'', h2, R2, h3⟩ := key v' true R' (by omega)
    exact ⟨v'', true, by unfold resizeA; rw [h, andThen_val]; exact h2, R2, by simp; omega, by omega, by omega⟩
  · right
    exact ⟨hg, by unfold resizeA; rw [h, andThen_exc]⟩

theorem resize_sim (R : Rep v xs) {n : Nat} (hn : Fits cfg.sz n) :
    Sim grant v (resize cfg grant v n) (xs.take n ++ List.replicate (n - xs.length) cfg.dflt) (fun m => m = true ↔ v.alloc < n) := by
  rcases resizeA_sim (cfg := cfg) (grant := grant) R hn cfg.dflt with ⟨v', m, h, R', hm, _⟩ | ⟨hg, h⟩
  · left; exact ⟨v', m, h, R', hm⟩
  · right; exact ⟨hg, h⟩

theorem resizeA_sim' (R : Rep v xs) {n : Nat} (hn : Fits cfg.sz n) (a : α) :
    Sim grant v (resizeA cfg grant v n (.val a)) (xs.take n ++ List.replicate (n - xs.length) a) (fun _ => True) := by
  rcases resizeA_sim (cfg := cfg) (grant := grant) R hn a with ⟨v', m, h, R', hm, _⟩ | ⟨hg, h⟩
  · left; exact ⟨v', m, h, R', trivial⟩
  · right; exact ⟨hg, h⟩

theorem take_repl_length (n : Nat) (a : α) : (xs.take n ++ List.replicate (n - xs.length) a).length = n := by
  simp; omega

theorem pushBack_sim (R : Rep v xs) (hn : Fits cfg.sz (xs.length + 1)) (a : α) :
    Sim grant v (pushBack cfg grant v (.val a)) (xs ++ [a]) (fun _ => True) := by
  have hs := R.size_eq
  have h63 := fits_le hn
  unfold pushBack
  rw [hs, w64_of_lt (by omega)]
  rcases reserve_sim' (cfg := cfg) (grant := grant) R hn with ⟨v', m, h, R', ha, _⟩ | ⟨hg, h⟩
  · left
    obtain ⟨d, h1, R2⟩ := extend_rep (ys := [a]) R' (by simpa using ha)
    have hs' := R'.size_eq
    refine ⟨{ v' with data := d, size := xs.length + 1 }, (), ?_, by simpa using R2, trivial⟩
    rw [h, andThen_val]
    simp only [readArg, Res.ok_bind]
    rw [show [some a] = [a].map some from rfl, h1]
    simp only [Res.ok_bind]
    rw [hs', w64_of_lt (by omega)]; rfl
  · right; exact ⟨hg, by rw [h, andThen_exc]⟩

theorem popBack_sim (R : Rep v xs) (hne : xs ≠ []) (hs64 : xs.length < 18446744073709551616) :
    ∃ v', popBack v = .ok (v', .val (xs.getLast hne)) ∧ Rep v' xs.dropLast := by
  have hs := R.size_eq
  have hpos : 0 < xs.length := List.length_pos_iff.mpr hne
  have hsub : sub64 v.size 1 = xs.length - 1 := by rw [hs]; exact sub64_of_le (by omega) hs64
  unfold popBack
  simp only [hsub]
  rw [readCell_rep R (by omega : xs.length - 1 < xs.length)]
  refine ⟨_, by simp only [Res.ok_bind]; rw [List.getLast_eq_getElem]; rfl, ?_⟩
  rw [List.dropLast_eq_take]
  exact shrink_rep R (by omega)

theorem assignN_sim (R : Rep v xs) {n : Nat} (hn : Fits cfg.sz n) (a : α) :
    Sim grant v (assignN cfg grant v n (.val a)) (List.replicate n a) (fun _ => True) := by
  unfold assignN
  refine (resize_sim (grant := grant) R hn).andThen ?_
  intro v' m R' _
  have hl := take_repl_length (xs := xs) n cfg.dflt
  by_cases h0 : n = 0
  · subst h0
    rw [if_pos rfl]
    exact ⟨v', (), rfl, by simpa using R', trivial⟩
  · rw [if_neg h0]
    obtain ⟨d, h1, R2⟩ := store_rep (v := v') (a := []) (b := xs.take n ++ List.replicate (n - xs.length) cfg.dflt) (c := [])
      (ys := List.replicate n a) (i := 0) (by simpa using R') (by rw [hl]; simp) rfl
    refine ⟨{ v' with data := d }, (), ?_, by simpa using R2, trivial⟩
    rw [show List.map some (List.replicate n a) = List.replicate n (some a) by simp] at h1
    simp only [readArg, Res.ok_bind, h1]; rfl

theorem assignRange_sim (R : Rep v xs) (ys : List α) (hn : Fits cfg.sz ys.length) :
    Sim grant v (assignRange cfg grant v (ys.map some)) ys (fun _ => True) := by
  unfold assignRange
  rw [List.length_map]
  refine (resize_sim (grant := grant) R hn).andThen ?_
  intro v' m R' _
  have hl := take_repl_length (xs := xs) ys.length cfg.dflt
  obtain ⟨d, h1, R2⟩ := store_rep (v := v') (a := []) (b := xs.take ys.length ++ List.replicate (ys.length - xs.length) cfg.dflt) (c := [])
    (ys := ys) (i := 0) (by simpa using R') (by rw [hl]) rfl
  refine ⟨{ v' with data := d }, (), ?_, by simpa using R2, trivial⟩
  simp only [h1, Res.ok_bind]; rfl

theorem assignVec_sim (R : Rep v xs) {w : Vec α} {ys : List α} (Rw : Rep w ys) (hn : Fits cfg.sz ys.length) :
    Sim grant v (assignVec cfg grant v w) ys (fun _ => True) := by
  unfold assignVec
  rw [readRange_rep (a := []) (b := ys) (c := []) (by simpa using Rw) (i := 0) (j := w.size) rfl (by simp [Rw.size_eq])]
  exact assignRange_sim R ys hn

theorem resize_same (R : Rep v xs) : resize cfg grant v v.size = .ok (v, .val false) := by
  unfold resize resizeA reserve
  have := R.le_alloc
  have := R.size_eq
  rw [if_pos (by omega), ret, andThen_val, if_neg (by omega)]; rfl

theorem assignSelf_sim (R : Rep v xs) : ∃ v', assignSelf cfg grant v = .ok (v', .val ()) ∧ Rep v' xs := by
  have R' : Rep v ([] ++ xs ++ []) := by simpa using R
  obtain ⟨d, h1, R2⟩ := store_rep (i := 0) (ys := xs) R' rfl rfl
  refine ⟨{ v with data := d }, ?_, by simpa using R2⟩
  unfold assignSelf
  rw [resize_same R, andThen_val]
  simp only [Bool.false_eq_true, if_false]
  rw [readRange_rep R' (i := 0) rfl (by simp [R.size_eq]), Res.ok_bind, h1]
  rfl

/-- the part of `insert` after `resize`: open a gap of `n` elements at `i` -/
theorem gap {p q : List α} {n : Nat} {d0 : α} (R : Rep v (p ++ q ++ List.replicate n d0)) {i : Nat} (hi : i = p.length) :
    ∃ g d, g = (q ++ List.replicate n d0).take n ∧ g.length = n ∧ readRange v.data i (v.size - n) = .ok (q.map some) ∧ store v.data (i + n) (q.map some) = .ok d ∧
      Rep { v with data := d } (p ++ g ++ q) := by
  have hs := R.size_eq
  simp at hs
  have hread := readRange_rep R hi (j := v.size - n) (by omega)
  have hsplit : p ++ q ++ List.replicate n d0 = (p ++ (q ++ List.replicate n d0).take n) ++ (q ++ List.replicate n d0).drop n ++ [] := by
    rw [List.append_nil, List.append_assoc, List.append_assoc, List.take_append_drop]
  have R' := R
  rw [hsplit] at R'
  obtain ⟨d, h1, R2⟩ := store_rep (ys := q) (i := i + n) R' (by simp) (by simp; omega)
  exact ⟨(q ++ List.replicate n d0).take n, d, rfl, by simp, hread, h1, by simpa using R2⟩

theorem insertN_sim (R : Rep v xs) {i n : Nat} (hi : i ≤ xs.length) (hn : Fits cfg.sz (xs.length + n)) (a : α) :
    Sim grant v (insertN cfg grant v i n (.val a)) (xs.take i ++ List.replicate n a ++ xs.drop i) (fun _ => True) := by
  have hs := R.size_eq
  have h63 := fits_le hn
  unfold insertN
  rw [if_neg (by omega), hs, w64_of_lt (by omega)]
  refine (resize_sim (grant := grant) R hn).andThen ?_
  intro v' m R' _
  have e1 : xs.take (xs.length + n) ++ List.replicate (xs.length + n - xs.length) cfg.dflt =
      xs.take i ++ xs.drop i ++ List.replicate n cfg.dflt := by
    rw [List.take_of_length_le (by omega), List.take_append_drop]; congr 2; omega
  rw [e1] at R'
  have hs' := R'.size_eq
  simp at hs'
  obtain ⟨g, d, _, hg, h1, h2, R2⟩ := gap (i := i) R' (by simp; omega)
  rw [if_neg (by omega)]
  simp only [h1, h2, Res.ok_bind]
  by_cases h0 : n = 0
  · subst h0
    rw [if_pos rfl]
    have : g = [] := List.eq_nil_of_length_eq_zero hg
    subst this
    exact ⟨_, (), rfl, by simpa using R2, trivial⟩
  · rw [if_neg h0]
    obtain ⟨d2, h3, R3⟩ := store_rep (ys := List.replicate n a) (i := i) R2 (by simpa using hg) (by simp; omega)
    rw [show List.map some (List.replicate n a) = List.replicate n (some a) by simp] at h3
    refine ⟨{ v' with data := d2 }, (), ?_, R3, trivial⟩
    simp only [readArg, Res.ok_bind]
    simp only [h3, Res.ok_bind]; rfl

theorem insertRange_sim (R : Rep v xs) {i : Nat} (ys : List α) (hi : i ≤ xs.length) (hn : Fits cfg.sz (xs.length + ys.length)) :
    Sim grant v (insertRange cfg grant v i (ys.map some)) (xs.take i ++ ys ++ xs.drop i) (fun _ => True) := by
  have hs := R.size_eq
  have h63 := fits_le hn
  unfold insertRange
  rw [if_neg (by omega), hs, List.length_map, w64_of_lt (by omega)]
  refine (resize_sim (grant := grant) R hn).andThen ?_
  intro v' m R' _
  have e1 : xs.take (xs.length + ys.length) ++ List.replicate (xs.length + ys.length - xs.length) cfg.dflt =
      xs.take i ++ xs.drop i ++ List.replicate ys.length cfg.dflt := by
    rw [List.take_of_length_le (by omega), List.take_append_drop]; congr 2; omega
  rw [e1] at R'
  have hs' := R'.size_eq
  simp at hs'
  obtain ⟨g, d, _, hg, h1, h2, R2⟩ := gap (i := i) R' (by simp; omega)
  rw [if_neg (by omega)]
  simp only [h1, h2, Res.ok_bind]
  obtain ⟨d2, h3, R3⟩ := store_rep (ys := ys) (i := i) R2 hg (by simp; omega)
  simp only at h3
  refine ⟨{ v' with data := d2 }, (), ?_, R3, trivial⟩
  simp only [h3, Res.ok_bind]; rfl

theorem erase_sim (R : Rep v xs) {f l : Nat} (h : f < l) (h2 : l < xs.length) :
    ∃ v', erase cfg v f l = .ok (v', .val ()) ∧ Rep v' (xs.take f ++ xs.drop l) := by
  have hs := R.size_eq
  have hle := R.le_alloc
  have R1 : Rep v (xs.take l ++ xs.drop l ++ []) := by rw [List.take_append_drop, List.append_nil]; exact R
  have hr := readRange_rep R1 (i := l) (j := v.size) (by simp; omega) (by simp; omega)
  have hsplit : xs = xs.take f ++ (xs.drop f).take (xs.length - l) ++ (xs.drop f).drop (xs.length - l) := by
    rw [List.append_assoc, List.take_append_drop, List.take_append_drop]
  have R2 := R
  rw [hsplit] at R2
  obtain ⟨d, h3, R3⟩ := store_rep (ys := xs.drop l) (i := f) R2 (by simp; omega) (by simp; omega)
  have hn : v.size - (l - f) = (xs.take f ++ xs.drop l).length := by simp; omega
  refine ⟨{ v with data := d, size := v.size - (l - f) }, ?_, ?_⟩
  · unfold erase
    rw [if_neg (by omega)]
    simp only [hr, h3, Res.ok_bind]
    unfold resize resizeA reserve
    simp only
    rw [if_pos (by omega)]
    simp only [ret, andThen_val]
    rw [if_neg (by omega)]
    rfl
  · have := shrink_rep R3 (n := v.size - (l - f)) (by simp; omega)
    rw [hn] at this
    rw [List.take_left] at this
    rw [hn]
    exact this

theorem copy_sim (R : Rep v xs) : ∃ w, copy cfg true v = .ok w ∧ Rep w xs := by
  have hs := R.size_eq
  unfold copy
  rw [readRange_rep (a := []) (b := xs) (c := []) (by simpa using R) (i := 0) (j := v.size) rfl (by simp [hs])]
  obtain ⟨d, h1, h2, h3⟩ := store_ok (d := calloc cfg true v.size) (by simp [calloc]) (a := []) (b := List.replicate v.size (some cfg.zero))
    (c := []) (ys := xs.map some) (by simp [calloc, cells]) (by simp [hs])
  refine ⟨⟨d, v.size, v.size⟩, ?_, ⟨hs, h2, by simp only; omega, ?_, ⟨[], by rw [h3]; simp⟩⟩⟩
  · simp only [Res.ok_bind]
    rw [List.length_nil] at h1
    rw [h1]; rfl
  · simp only; rw [h3]; simp [hs]

theorem clear_sim (R : Rep v xs) : clear v = .ok (empty, .val ()) := by
  unfold clear
  have := R.nd
  cases h : v.data with
  | dangling => exact absurd h this
  | null => rfl
  | buf c => rfl

/-! no allocation when the capacity suffices -/

theorem reserve_noalloc {n : Nat} (h : n ≤ v.alloc) : reserve cfg grant v n = .ok (v, .val false) := by
  unfold reserve; rw [if_pos h]; rfl

theorem exc_of_resizeA {n : Nat} {a : VArg α} {e : Exc} (h : resizeA cfg grant v n a = .ok (v, .exc e)) : v.alloc < n := by
  rcases Nat.lt_or_ge v.alloc n with h1 | h1
  · exact h1
  · exfalso
    unfold resizeA at h
    rw [reserve_noalloc h1, andThen_val] at h
    split at h
    · rw [Res.bind_eq_ok] at h
      obtain ⟨a, _, h⟩ := h
      rw [Res.bind_eq_ok] at h
      obtain ⟨d, _, h⟩ := h
      simp [ret] at h
    · simp [ret] at h

theorem andThen_exc_iff {x : Res (Vec α × Ret β)} {f : Vec α → β → Res (Vec α × Ret γ)} {e : Exc} {v : Vec α}
    (hf : ∀ v' b w, f v' b ≠ .ok (w, .exc e)) (h : andThen x f = .ok (v, .exc e)) : x = .ok (v, .exc e) := by
  rcases x with ⟨v', _ | e'⟩ | _ | _ | _ | _ <;> simp [andThen] at h
  · exact absurd h (hf _ _ _)
  · simp [h]

/-! histories -/

/-- the pair of vectors holds the pair of sequences -/
structure Rep2 (cfg : Cfg α) (s : Vec α × Vec α) (xs : List α × List α) : Prop where
  r1 : Rep s.1 xs.1
  r2 : Rep s.2 xs.2
  f1 : Fits cfg.sz xs.1.length
  f2 : Fits cfg.sz xs.2.length

theorem sim_report {f : β → VRet α} {w : Vec α} {x : Res (Vec α × Ret β)} {xs' : List α} {P : β → Prop} {r : VRet α}
    (h : Sim grant v x xs' P) (hf : ∀ b, P b → f b = r) :
    (∃ v', report f w x = .ok ((v', w), r) ∧ Rep v' xs') ∨
    (grant = false ∧ report f w x = .ok ((v, w), .exc .noMemory) ∧ x = .ok (v, .exc .noMemory)) := by
  rcases h with ⟨v', b, rfl, R, hp⟩ | ⟨hg, rfl⟩
  · left; exact ⟨v', by simp [report, hf b hp], R⟩
  · right; exact ⟨hg, rfl, rfl⟩

theorem step_sim {s : Vec α × Vec α} {xs : List α × List α} (R : Rep2 cfg s xs) (op : VOp α) (hp : VPre cfg.sz xs op) :
    (∃ s', step cfg grant s op = .ok (s', (vstep cfg.dflt xs op).2) ∧ Rep2 cfg s' (vstep cfg.dflt xs op).1) ∨
    (grant = false ∧ MayAlloc xs op ∧ step cfg grant s op = .ok (s, .exc .noMemory)) := by
  obtain ⟨v, w⟩ := s
  obtain ⟨l, m⟩ := xs
  obtain ⟨R1, R2, F1, F2⟩ := R
  simp only at R1 R2 F1 F2
  have h63 := fits_le F1
  have hle := R1.le_alloc
  cases op with
  | pushBack a =>
    rcases sim_report (w := w) (f := fun _ => .done) (r := .done) (pushBack_sim (grant := grant) R1 hp a) (fun _ _ => rfl) with ⟨v', h, R'⟩ | ⟨hg, h, _⟩
    · left; exact ⟨_, h, R', R2, by simp only [vstep, List.length_append]; exact hp, F2⟩
    · right; exact ⟨hg, trivial, h⟩
  | popBack =>
    left
    have hne : l ≠ [] := hp
    obtain ⟨v', h, R'⟩ := popBack_sim R1 hne (by omega)
    refine ⟨(v', w), ?_, R', R2, fits_mono F1 (by simp [vstep]), F2⟩
    simp only [step, h, report, vstep, List.getLast?_eq_some_getLast hne]
  | insertN i n a =>
    by_cases hi : i ≤ l.length
    · rcases sim_report (w := w) (f := fun _ => .done) (r := .done) (insertN_sim (grant := grant) R1 hi hp a) (fun _ _ => rfl) with ⟨v', h, R'⟩ | ⟨hg, h, h'⟩
      · left
        simp only [vstep, if_pos hi]
        exact ⟨_, h, R', R2, fits_mono hp (by simp; omega), F2⟩
      · right
        refine ⟨hg, ⟨hi, ?_⟩, h⟩
        rcases Nat.eq_zero_or_pos n with h0 | h0
        · exfalso
          subst h0
          unfold insertN at h'
          have hs := R1.size_eq
          rw [if_neg (by omega), Nat.add_zero, w64_of_lt (by omega), resize_same R1, andThen_val, if_neg (by omega)] at h'
          rw [Res.bind_eq_ok] at h'
          obtain ⟨_, _, h'⟩ := h'
          rw [Res.bind_eq_ok] at h'
          obtain ⟨_, _, h'⟩ := h'
          simp [ret] at h'
        · exact h0
    · left
      simp only [vstep, if_neg hi]
      refine ⟨(v, w), ?_, R1, R2, F1, F2⟩
      have hs := R1.size_eq
      simp only [step, insertN]
      rw [if_pos (by omega)]; rfl
  | insertRange i ys =>
    by_cases hi : i ≤ l.length
    · rcases sim_report (w := w) (f := fun _ => .done) (r := .done) (insertRange_sim (grant := grant) R1 ys hi hp) (fun _ _ => rfl) with ⟨v', h, R'⟩ | ⟨hg, h, h'⟩
      · left
        simp only [vstep, if_pos hi]
        exact ⟨_, h, R', R2, fits_mono hp (by simp; omega), F2⟩
      · right
        refine ⟨hg, ⟨hi, ?_⟩, h⟩
        rintro rfl
        unfold insertRange at h'
        have hs := R1.size_eq
        simp only [List.map_nil, List.length_nil, Nat.add_zero] at h'
        rw [if_neg (by omega), w64_of_lt (by omega), resize_same R1, andThen_val, if_neg (by omega)] at h'
        rw [Res.bind_eq_ok] at h'
        obtain ⟨_, _, h'⟩ := h'
        rw [Res.bind_eq_ok] at h'
        obtain ⟨_, _, h'⟩ := h'
        rw [Res.bind_eq_ok] at h'
        obtain ⟨_, _, h'⟩ := h'
        simp [ret] at h'
    · left
      simp only [vstep, if_neg hi]
      refine ⟨(v, w), ?_, R1, R2, F1, F2⟩
      have hs := R1.size_eq
      simp only [step, insertRange]
      rw [if_pos (by omega)]; rfl
  | erase f k =>
    left
    have hs := R1.size_eq
    by_cases h : f < k ∧ k < l.length
    · obtain ⟨v', h1, R'⟩ := erase_sim (cfg := cfg) R1 h.1 h.2
      simp only [vstep, if_pos h]
      exact ⟨(v', w), by simp only [step, h1, report], R', R2, fits_mono F1 (by simp; omega), F2⟩
    · simp only [vstep, if_neg h]
      refine ⟨(v, w), ?_, R1, R2, F1, F2⟩
      simp only [step, erase]
      rw [if_pos (by omega)]; rfl
  | erase1 i =>
    left
    have hs := R1.size_eq
    have hi : i < 18446744073709551616 := hp
    by_cases h : i + 1 < l.length
    · obtain ⟨v', h1, R'⟩ := erase_sim (cfg := cfg) R1 (Nat.lt_succ_self i) h
      simp only [vstep, if_pos h]
      rw [← List.eraseIdx_eq_take_drop_succ] at R'
      refine ⟨(v', w), ?_, R', R2, fits_mono F1 (List.length_eraseIdx_le _ _), F2⟩
      simp only [step, erase1, w64_of_lt (by omega : i + 1 < 18446744073709551616), h1, report]
    · simp only [vstep, if_neg h]
      refine ⟨(v, w), ?_, R1, R2, F1, F2⟩
      simp only [step, erase1, erase]
      rw [if_pos]; · rfl
      unfold w64
      omega
  | resize n =>
    rcases sim_report (w := w) (f := fun _ => .done) (r := .done) (resize_sim (grant := grant) R1 hp) (fun _ _ => rfl) with ⟨v', h, R'⟩ | ⟨hg, h, h'⟩
    · left; exact ⟨_, h, R', R2, fits_mono hp (by simp only [vstep]; rw [take_repl_length]; exact Nat.le_refl _), F2⟩
    · right; exact ⟨hg, by have := exc_of_resizeA h'; show l.length < n; omega, h⟩
  | resizeA n a =>
    rcases sim_report (w := w) (f := fun _ => .done) (r := .done) (resizeA_sim' (grant := grant) R1 hp a) (fun _ _ => rfl) with ⟨v', h, R'⟩ | ⟨hg, h, h'⟩
    · left; exact ⟨_, h, R', R2, fits_mono hp (by simp only [vstep]; rw [take_repl_length]; exact Nat.le_refl _), F2⟩
    · right; exact ⟨hg, by have := exc_of_resizeA h'; show l.length < n; omega, h⟩
  | reserve n =>
    rcases sim_report (w := w) (f := fun _ => .done) (r := .done) (reserve_sim (grant := grant) R1 hp) (fun _ _ => rfl) with ⟨v', h, R'⟩ | ⟨hg, h, h'⟩
    · left; exact ⟨_, h, R', R2, F1, F2⟩
    · right
      refine ⟨hg, ?_, h⟩
      rcases Nat.lt_or_ge v.alloc n with h1 | h1
      · show l.length < n; omega
      · rw [reserve_noalloc h1] at h'; simp at h'
  | assignN n a =>
    rcases sim_report (w := w) (f := fun _ => .done) (r := .done) (assignN_sim (grant := grant) R1 hp a) (fun _ _ => rfl) with ⟨v', h, R'⟩ | ⟨hg, h, h'⟩
    · left; exact ⟨_, h, R', R2, fits_mono hp (by simp [vstep]), F2⟩
    · right
      refine ⟨hg, ?_, h⟩
      have := exc_of_resizeA (andThen_exc_iff (by
        intro v' b w hc
        split at hc
        · simp [ret] at hc
        · rw [Res.bind_eq_ok] at hc
          obtain ⟨_, _, hc⟩ := hc
          rw [Res.bind_eq_ok] at hc
          obtain ⟨_, _, hc⟩ := hc
          simp [ret] at hc) h')
      show l.length < n; omega
  | assignRange ys =>
    rcases sim_report (w := w) (f := fun _ => .done) (r := .done) (assignRange_sim (grant := grant) R1 ys hp) (fun _ _ => rfl) with ⟨v', h, R'⟩ | ⟨hg, h, h'⟩
    · left; exact ⟨_, h, R', R2, hp, F2⟩
    · right
      refine ⟨hg, ?_, h⟩
      have := exc_of_resizeA (andThen_exc_iff (by
        intro v' b w hc
        rw [Res.bind_eq_ok] at hc
        obtain ⟨_, _, hc⟩ := hc
        simp [ret] at hc) h')
      rw [List.length_map] at this
      show l.length < ys.length; omega
  | assignSelf =>
    left
    obtain ⟨v', h, R'⟩ := assignSelf_sim (cfg := cfg) (grant := grant) R1
    exact ⟨(v', w), by simp only [step, h, report, vstep], R', R2, F1, F2⟩
  | clear =>
    left
    exact ⟨(empty, w), by simp only [step, clear_sim R1, report, vstep], rep_empty, R2, fits_mono F1 (by simp [vstep]), F2⟩
  | at_ i =>
    left
    refine ⟨(v, w), ?_, R1, R2, F1, F2⟩
    have hs := R1.size_eq
    simp only [step, at_, vstep]
    by_cases h : i < l.length
    · rw [if_neg (by omega), readCell_rep R1 h, List.getElem?_eq_getElem h]; rfl
    · rw [if_pos (by omega), List.getElem?_eq_none (by omega)]; rfl
  | index i =>
    left
    refine ⟨(v, w), ?_, R1, R2, F1, F2⟩
    have h : i < l.length := hp
    simp only [step, index, vstep]
    rw [readCell_rep R1 h, List.getElem?_eq_getElem h]; rfl
  | size => left; exact ⟨(v, w), by simp only [step, vstep, R1.size_eq], R1, R2, F1, F2⟩
  | swap => left; exact ⟨(w, v), rfl, R2, R1, F2, F1⟩
  | assignVec =>
    rcases sim_report (w := w) (f := fun _ => .done) (r := .done) (assignVec_sim (grant := grant) R1 R2 F2) (fun _ _ => rfl) with ⟨v', h, R'⟩ | ⟨hg, h, h'⟩
    · left; exact ⟨_, h, R', R2, F2, F2⟩
    · right
      refine ⟨hg, ?_, h⟩
      unfold assignVec at h'
      rw [readRange_rep (a := []) (b := m) (c := []) (by simpa using R2) (i := 0) (j := w.size) rfl (by simp [R2.size_eq]), Res.ok_bind] at h'
      have := exc_of_resizeA (andThen_exc_iff (by
        intro v' b w hc
        rw [Res.bind_eq_ok] at hc
        obtain ⟨_, _, hc⟩ := hc
        simp [ret] at hc) h')
      rw [List.length_map] at this
      show l.length < m.length; omega
  | copy =>
    left
    obtain ⟨w', h, R'⟩ := copy_sim (cfg := cfg) R1
    exact ⟨(v, w'), by simp only [step, h, Res.ok_bind, vstep], R1, R', F1, F1⟩

theorem run_sim (ops : List (VOp α × Bool)) : ∀ (s : Vec α × Vec α) (xs : List α × List α), Rep2 cfg s xs → VPres cfg.sz cfg.dflt xs ops →
    ∃ s' xs' rs, run cfg s ops = .ok (s', rs) ∧ Rep2 cfg s' xs' ∧ VHist cfg.dflt xs ops xs' rs := by
  induction ops with
  | nil => intro s xs R _; exact ⟨s, xs, [], rfl, R, .nil xs⟩
  | cons og ops ih =>
    intro s xs R hp
    cases hp with
    | @cons _ op g _ hp h1 h2 =>
      rcases step_sim (grant := g) R op hp with ⟨s1, e1, R1⟩ | ⟨hg, ha, e1⟩
      · obtain ⟨s', xs', rs, e2, R2, H⟩ := ih s1 _ R1 h1
        exact ⟨s', xs', _, by simp [run, e1, e2], R2, .step H⟩
      · obtain ⟨s', xs', rs, e2, R2, H⟩ := ih s _ R (h2 hg ha)
        subst hg
        exact ⟨s', xs', _, by simp [run, e1, e2], R2, .refused ha H⟩

end Vec
end Eni
