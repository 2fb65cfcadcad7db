import Verif.Proofs.VectorObs
import Verif.Model.PointerIterator
/-!
# Properties C16-C22, C60, C61: `Vector` and `PointerIterator`
-/
namespace Eni.Props
open Spec
variable {α : Type}

/-- C16. For every history of operations on two vectors, whichever allocations are refused, no operation has undefined behaviour or
fails to return, the reports are those of the same operations on mathematical sequences (an operation to which memory was refused
reports `BadAlloc<NoMemory>` and has no effect), and `size()` and `at(i)` of both vectors finally agree with the sequences. -/
theorem C16_vector_is_sequence (cfg : Vec.Cfg α) (ops : List (VOp α × Bool)) (hp : VPres cfg.sz cfg.dflt ([], []) ops) :
    ∃ v w xs ys rs, Vec.run cfg (Vec.empty, Vec.empty) ops = .ok ((v, w), rs) ∧ VHist cfg.dflt ([], []) ops (xs, ys) rs ∧
      Contents v xs ∧ Contents w ys := by
  obtain ⟨⟨v, w⟩, ⟨xs, ys⟩, rs, h, R, H⟩ := Vec.run_sim ops (Vec.empty, Vec.empty) ([], []) Vec.rep2_empty hp
  exact ⟨v, w, xs, ys, rs, h, H, Vec.rep_contents R.r1, Vec.rep_contents R.r2⟩

/-- C16 without allocation failures: the outcome is determined by the sequences alone. -/
theorem C16_vector_is_sequence_granted (cfg : Vec.Cfg α) (ops : List (VOp α))
    (hp : VPres cfg.sz cfg.dflt ([], []) (ops.map (·, true))) :
    ∃ v w, Vec.run cfg (Vec.empty, Vec.empty) (ops.map (·, true)) = .ok ((v, w), (vsteps cfg.dflt ([], []) ops).2) ∧
      Contents v (vsteps cfg.dflt ([], []) ops).1.1 ∧ Contents w (vsteps cfg.dflt ([], []) ops).1.2 := by
  obtain ⟨⟨v, w⟩, s', rs, h, R, H⟩ := Vec.run_sim _ (Vec.empty, Vec.empty) ([], []) Vec.rep2_empty hp
  obtain ⟨rfl, rfl⟩ := Vec.vhist_granted H
  exact ⟨v, w, h, Vec.rep_contents R.r1, Vec.rep_contents R.r2⟩

def intCfg : Vec.Cfg Nat := ⟨4, 0, 0, by decide⟩

/-- a concrete history with a refused allocation: `push_back 1; push_back 2` (refused); `insert(0, 2, 7); erase(0, 1); at(1); at(9)` -/
example : VPres intCfg.sz intCfg.dflt ([], [])
    [(.pushBack 1, true), (.pushBack 2, false), (.insertN 0 2 7, true), (.erase 0 1, true), (.at_ 1, true), (.at_ 9, true)] := by
  refine .cons (by show Fits _ _; decide) (.cons (by show Fits _ _; decide) ?_ ?_) (by simp)
  · exact .cons (by show Fits _ _; decide) (.cons trivial (.cons trivial (.cons trivial (.nil _) (by simp)) (by simp)) (by simp)) (by simp)
  · intro _ _
    exact .cons (by show Fits _ _; decide) (.cons trivial (.cons trivial (.cons trivial (.nil _) (by simp)) (by simp)) (by simp)) (by simp)

example : (Vec.run intCfg (Vec.empty, Vec.empty)
    [(.pushBack 1, true), (.pushBack 2, false), (.insertN 0 2 7, true), (.erase 0 1, true), (.at_ 1, true), (.at_ 9, true)])
    = .ok ((⟨.buf [some 7, some 1, some 1, none], 2, 3⟩, Vec.empty),
      [.done, .exc .noMemory, .done, .done, .val 1, .exc .invalidVectorIndex]) := by decide

/-- C17. Checked access: on every vector reached by a history, `at(i)` returns element `i` if `i < size` and throws
`OutOfRange<InvalidVectorIndex>` otherwise, and `json::Array::operator[](int)` does the same for every `int`, negative ones included. -/
theorem C17_checked_access (cfg : Vec.Cfg α) {v : Vec α} (hr : Vec.Reachable cfg v) :
    ∃ xs : List α, v.size = xs.length ∧
      (∀ i (h : i < xs.length), Vec.at_ v i = .ok (v, .val xs[i]) ∧ Vec.index v i = .ok xs[i]) ∧
      (∀ i, xs.length ≤ i → Vec.at_ v i = .ok (v, .exc .invalidVectorIndex)) ∧
      (∀ i : Int, -2147483648 ≤ i → i < 2147483648 →
        (∀ (_ : 0 ≤ i) (h2 : i.toNat < xs.length), Vec.atInt v i = .ok (v, .val xs[i.toNat])) ∧
        (i < 0 ∨ (xs.length : Int) ≤ i → Vec.atInt v i = .ok (v, .exc .invalidVectorIndex))) := by
  obtain ⟨xs, R, F⟩ := Vec.reachable_rep hr
  have hF := Vec.fits_le F
  have hs := R.size_eq
  have hin : ∀ i (h : i < xs.length), Vec.at_ v i = .ok (v, .val xs[i]) := by
    intro i h
    rw [Vec.at_, if_neg (by omega), Vec.readCell_rep R h]; rfl
  have hout : ∀ i, xs.length ≤ i → Vec.at_ v i = .ok (v, .exc .invalidVectorIndex) := by
    intro i h
    rw [Vec.at_, if_pos (by omega)]; rfl
  refine ⟨xs, hs, fun i h => ⟨hin i h, Vec.readCell_rep R h⟩, hout, ?_⟩
  intro i h1 h2
  refine ⟨fun h3 h4 => ?_, fun h3 => ?_⟩
  · have e : (i % 18446744073709551616).toNat = i.toNat := by omega
    rw [Vec.atInt, e]; exact hin _ h4
  · rw [Vec.atInt]; exact hout _ (by omega)

/-- vectors with elements are reachable -/
theorem reach3 : Vec.Reachable intCfg ⟨.buf [some 5, some 6, some 7, none], 3, 3⟩ :=
  ⟨[(.assignRange [5, 6, 7], true)], Vec.empty, _, .cons (by show Fits _ _; decide) (.nil _) (by simp), rfl⟩

example : Vec.atInt (α := Nat) ⟨.buf [some 5, some 6, some 7, none], 3, 3⟩ (-1) = .ok (⟨.buf [some 5, some 6, some 7, none], 3, 3⟩, .exc .invalidVectorIndex) := by decide

/-- C18 is false of the code: on every vector reached by a history, erasing a non-empty range that ends at the end (in particular the
last element) throws `OutOfRange<InvalidVectorIndex>` and removes nothing. -/
theorem C18_erase_to_end_false (cfg : Vec.Cfg α) {v : Vec α} (hr : Vec.Reachable cfg v) :
    (∀ first, first < v.size → Vec.erase cfg v first v.size = .ok (v, .exc .invalidVectorIndex)) ∧
    (0 < v.size → Vec.erase1 cfg v (v.size - 1) = .ok (v, .exc .invalidVectorIndex)) := by
  obtain ⟨xs, R, F⟩ := Vec.reachable_rep hr
  have hF := Vec.fits_le F
  have hs := R.size_eq
  refine ⟨fun first h => ?_, fun h => ?_⟩
  · rw [Vec.erase, if_pos (by omega)]; rfl
  · rw [Vec.erase1, w64_of_lt (by omega), Vec.erase, if_pos (by omega)]; rfl

example : Vec.erase1 intCfg ⟨.buf [some 5, some 6, some 7, none], 3, 3⟩ 2 = .ok (⟨.buf [some 5, some 6, some 7, none], 3, 3⟩, .exc .invalidVectorIndex) := by decide

/-- C18, the part that holds (`last < size` instead of `last ≤ size`): exactly the elements of `[first, last)` are removed. -/
theorem C18_erase_partial (cfg : Vec.Cfg α) {v : Vec α} (hr : Vec.Reachable cfg v) {xs : List α} (hc : Contents v xs)
    {first last : Nat} (h1 : first < last) (h2 : last < xs.length) :
    ∃ v', Vec.erase cfg v first last = .ok (v', .val ()) ∧ Contents v' (xs.take first ++ xs.drop last) := by
  obtain ⟨xs', R, F⟩ := Vec.reachable_rep hr
  obtain rfl := Vec.contents_unique (Vec.rep_contents R) hc
  obtain ⟨v', h, R'⟩ := Vec.erase_sim (cfg := cfg) R h1 h2
  exact ⟨v', h, Vec.rep_contents R'⟩

example : ∃ v', Vec.erase intCfg ⟨.buf [some 5, some 6, some 7, none], 3, 3⟩ 0 2 = .ok (v', .val ()) ∧ Contents v' [7] := by
  have := C18_erase_partial intCfg reach3 (xs := [5, 6, 7]) (by
    obtain ⟨xs', R, F⟩ := Vec.reachable_rep reach3
    refine ⟨rfl, fun i => ?_⟩
    match i with
    | 0 => rfl
    | 1 => rfl
    | 2 => rfl
    | i + 3 => simp [Vec.at_, Vec.throw]) (first := 0) (last := 2) (by omega) (by decide)
  exact this

/-- C19 is false of the code (1): `v.push_back(v[j])` on a full vector reads the released block, for every vector reached by a history
that is full and can grow. -/
theorem C19_push_back_own_false (cfg : Vec.Cfg α) {v : Vec α} (hr : Vec.Reachable cfg v) (hfull : Vec.capacity v = v.size)
    (hn : Fits cfg.sz (v.size + 1)) (j : Nat) (_hj : j < v.size) : Vec.pushBack cfg true v (.own j) = .ub .useAfterFree := by
  obtain ⟨xs, R, F⟩ := Vec.reachable_rep hr
  have hF := Vec.fits_le F
  have hs := R.size_eq
  rw [Vec.pushBack, w64_of_lt (by omega)]
  rcases Vec.reserve_spec (grant := true) R hn with ⟨h, _⟩ | ⟨_, ⟨_, v', h, _, _⟩ | ⟨h, _⟩⟩
  · rw [Vec.capacity] at hfull; omega
  · rw [h]; rfl
  · simp at h

/-- full vectors that can grow are reachable -/
example : Vec.pushBack intCfg true ⟨.buf [some 5, some 6, some 7, none], 3, 3⟩ (.own 0) = .ub .useAfterFree :=
  C19_push_back_own_false intCfg reach3 rfl (by decide) 0 (by decide)

/-- C19 is false of the code (2): without reallocation, `v.insert(i, n, v[j])` with `j ≥ i + n` inserts the value `v[j - n]` instead of
`v[j]`. -/
theorem C19_insert_own_false (cfg : Vec.Cfg α) {v : Vec α} (hr : Vec.Reachable cfg v) {xs : List α} (hc : Contents v xs)
    (grant : Bool) {i n j : Nat} (hn : v.size + n ≤ Vec.capacity v) (hn2 : Fits cfg.sz (xs.length + n)) (hij : i + n ≤ j)
    (hj : j < xs.length) :
    ∃ v', Vec.insertN cfg grant v i n (.own j) = .ok (v', .val ()) ∧
      Contents v' (xs.take i ++ List.replicate n xs[j - n] ++ xs.drop i) := by
  obtain ⟨xs', R, F⟩ := Vec.reachable_rep hr
  obtain rfl := Vec.contents_unique (Vec.rep_contents R) hc
  obtain ⟨v', h, R'⟩ := Vec.insertN_own (cfg := cfg) (grant := grant) R (i := i) hn hn2 (by omega) hj
  exact ⟨v', h, Vec.rep_contents (by simpa [Nat.not_lt.mpr hij] using R')⟩

/-- a reachable vector on which the wrong element is inserted -/
theorem reachRoom : Vec.Reachable intCfg ⟨.buf [some 5, some 6, some 7, none, none, none, none, none], 3, 8⟩ :=
  ⟨[(.reserve 8, true), (.assignRange [5, 6, 7], true)], Vec.empty, _,
    .cons (by show Fits _ _; decide) (.cons (by show Fits _ _; decide) (.nil _) (by simp)) (by simp), rfl⟩

example : Vec.insertN intCfg true ⟨.buf [some 5, some 6, some 7, none, none, none, none, none], 3, 8⟩ 0 1 (.own 2)
    = .ok (⟨.buf [some 6, some 5, some 6, some 7, none, none, none, none], 4, 8⟩, .val ()) := by decide

/-- C19, the part that holds: with enough capacity, `push_back(v[j])` appends the value of `v[j]`, and `insert(i, n, v[j])` with
`j < i + n` inserts it. -/
theorem C19_own_element_partial (cfg : Vec.Cfg α) {v : Vec α} (hr : Vec.Reachable cfg v) {xs : List α} (hc : Contents v xs)
    (grant : Bool) {j : Nat} (hj : j < xs.length) :
    (v.size < Vec.capacity v → ∃ v', Vec.pushBack cfg grant v (.own j) = .ok (v', .val ()) ∧ Contents v' (xs ++ [xs[j]])) ∧
    (∀ i n, i ≤ xs.length → j < i + n → v.size + n ≤ Vec.capacity v → Fits cfg.sz (xs.length + n) →
      ∃ v', Vec.insertN cfg grant v i n (.own j) = .ok (v', .val ()) ∧
        Contents v' (xs.take i ++ List.replicate n xs[j] ++ xs.drop i)) := by
  obtain ⟨xs', R, F⟩ := Vec.reachable_rep hr
  obtain rfl := Vec.contents_unique (Vec.rep_contents R) hc
  have hF := Vec.fits_le F
  have hs := R.size_eq
  refine ⟨fun hcap => ?_, fun i n hi hji hn hn2 => ?_⟩
  · rw [Vec.capacity] at hcap
    obtain ⟨d, h, R'⟩ := Vec.extend_rep (ys := [xs'[j]]) R (by simp; omega)
    refine ⟨{ v with data := d, size := xs'.length + 1 }, ?_, Vec.rep_contents R'⟩
    rw [Vec.pushBack, w64_of_lt (by omega), Vec.reserve_noalloc (by omega), Vec.andThen_val]
    simp only [Vec.readArg, if_neg Bool.false_ne_true, Vec.readCell_rep R hj, Res.ok_bind]
    rw [List.map_singleton] at h
    rw [h]
    simp only [Res.ok_bind, Vec.ret, hs, w64_of_lt (by omega : xs'.length + 1 < 18446744073709551616)]
  · obtain ⟨v', h, R'⟩ := Vec.insertN_own (cfg := cfg) (grant := grant) R hn hn2 hi hj
    exact ⟨v', h, Vec.rep_contents (by simpa [hji] using R')⟩

theorem contents3 : Contents (⟨.buf [some 5, some 6, some 7, none], 3, 3⟩ : Vec Nat) [5, 6, 7] := by
  refine ⟨rfl, fun i => ?_⟩
  match i with
  | 0 => rfl
  | 1 => rfl
  | 2 => rfl
  | i + 3 => simp [Vec.at_, Vec.throw]

example := C19_own_element_partial intCfg reach3 contents3 true (j := 1) (by decide)

/-- C20 is false of the code (1): on an empty vector `reserve(n)` never returns when `n > 2^63`: no number of iterations of its loop
is enough. -/
theorem C20_reserve_diverges_false (cfg : Vec.Cfg α) (grant : Bool) (n : Nat) (h1 : 9223372036854775808 < n)
    (h2 : n ≤ Vec.maxSize) :
    (∀ fuel, Vec.growLoop n fuel (Vec.capacity (Vec.empty : Vec α)) = .diverge) ∧
    Vec.reserve cfg grant Vec.empty n = .diverge := by
  have h := Vec.growLoop_zero_diverge h1
  refine ⟨fun fuel => h fuel, ?_⟩
  rw [Vec.reserve, if_neg (by simp [Vec.empty]; omega), if_neg (by omega)]
  rw [show (Vec.empty : Vec α).alloc = 0 from rfl, h]; rfl

example : (9223372036854775808 < 9223372036854775809) ∧ 9223372036854775809 ≤ Vec.maxSize := by decide

/-- The iteration bound of the model of `reserve` is no restriction: a loop that has not ended within it never ends. -/
theorem C20_loop_bound_adequate (n c : Nat) (hc : c < 18446744073709551616) (h : Vec.growLoop n Vec.growFuel c = .diverge) :
    ∀ fuel, Vec.growLoop n fuel c = .diverge := Vec.growLoop_diverge_all hc h

example := C20_loop_bound_adequate 9223372036854775809 9223372036854775808 (by decide) (by decide +kernel)

/-- C20 is false of the code (2): for elements of 8 bytes, `reserve(2^61)` on an empty vector succeeds with a block of zero bytes;
`capacity()` is `2^61` and the next `push_back` writes out of bounds. -/
theorem C20_reserve_wraps_false (cfg : Vec.Cfg α) (h8 : cfg.sz = 8) :
    ∃ v, Vec.reserve cfg true Vec.empty 2305843009213693952 = .ok (v, .val true) ∧ Vec.capacity v = 2305843009213693952 ∧
      ∀ a grant, Vec.pushBack cfg grant v (.val a) = .ub .outOfBounds := by
  refine ⟨⟨.buf [], 0, 2305843009213693952⟩, ?_, rfl, fun a grant => rfl⟩
  have h1 : Vec.growLoop 2305843009213693952 Vec.growFuel 0 = .ok 2305843009213693952 := by
    simp [Vec.growFuel, Vec.growLoop, Vec.maxSize, w64]
  rw [Vec.reserve, if_neg (by simp [Vec.empty]), if_neg (by decide), show (Vec.empty : Vec α).alloc = 0 from rfl, h1, h8]
  simp [Vec.realloc, Vec.empty, w64, Vec.ret, h8, Vec.maxSize]

/-- C20 is false of the code (3): the same call on a vector whose block it reallocates to zero bytes throws `BadAlloc<NoMemory>` but the
old block is gone: every element access afterwards is undefined behaviour although `size()` is unchanged. -/
theorem C20_reserve_destroys_false :
    ∃ v : Vec Nat, Vec.Reachable ⟨8, 0, 0, by decide⟩ v ∧ v.size = 1 ∧
      ∃ v', Vec.reserve ⟨8, 0, 0, by decide⟩ true v 2305843009213693952 = .ok (v', .exc .noMemory) ∧ v'.size = 1 ∧
        Vec.at_ v' 0 = .ub .useAfterFree := by
  refine ⟨⟨.buf [some 5], 1, 1⟩, ⟨[(.pushBack 5, true)], Vec.empty, _, .cons (by show Fits _ _; decide) (.nil _) (by simp), rfl⟩, rfl, ?_⟩
  exact ⟨⟨.dangling, 1, 1⟩, by decide, rfl, by decide⟩

/-- C20: `LengthError` is never thrown, for no vector and no 64-bit argument. -/
theorem C20_length_error_unreachable (cfg : Vec.Cfg α) (grant : Bool) (v : Vec α) (n : Nat) (hn : n < 18446744073709551616) (v' : Vec α) :
    Vec.reserve cfg grant v n ≠ .ok (v', .exc .exceedVectorMaxSize) := by
  intro h
  unfold Vec.reserve at h
  split at h
  · simp [Vec.ret] at h
  · rw [if_neg (by unfold Vec.maxSize; omega), Res.bind_eq_ok] at h
    obtain ⟨t, _, h⟩ := h
    rw [Res.bind_eq_ok] at h
    obtain ⟨⟨_ | _, _⟩, _, h⟩ := h <;> simp [Vec.ret, Vec.throw] at h

example := C20_length_error_unreachable (⟨4, 0, 0, by decide⟩ : Vec.Cfg Nat) true Vec.empty 1000000 (by decide) Vec.empty

/-- C20, the part that holds: if twice the requested size fits into 64 bits as a byte count, `reserve` returns with the capacity
requested and unchanged contents, or throws `BadAlloc<NoMemory>` and changes nothing. -/
theorem C20_reserve_partial (cfg : Vec.Cfg α) {v : Vec α} (hr : Vec.Reachable cfg v) {xs : List α} (hc : Contents v xs) (grant : Bool)
    {n : Nat} (hn : Fits cfg.sz n) :
    (∃ v' m, Vec.reserve cfg grant v n = .ok (v', .val m) ∧ n ≤ Vec.capacity v' ∧ Contents v' xs) ∨
    (grant = false ∧ Vec.reserve cfg grant v n = .ok (v, .exc .noMemory)) := by
  obtain ⟨xs', R, F⟩ := Vec.reachable_rep hr
  obtain rfl := Vec.contents_unique (Vec.rep_contents R) hc
  rcases Vec.reserve_sim' (cfg := cfg) (grant := grant) R hn with ⟨v', m, h, R', ha, _⟩ | h
  · left; exact ⟨v', m, h, ha, Vec.rep_contents R'⟩
  · right; exact h

example : Fits 4 1000000000 := by unfold Fits; decide

/-- C21. When the allocator refuses memory, `push_back`, `reserve`, `resize` and both forms of `insert` throw `BadAlloc<NoMemory>`
exactly when the new size exceeds the capacity, and then the vector is unchanged (contents, size and capacity); otherwise they have
their normal effect. -/
theorem C21_allocation_failure (cfg : Vec.Cfg α) {v : Vec α} (hr : Vec.Reachable cfg v) {xs : List α} (hc : Contents v xs) :
    (∀ a, Fits cfg.sz (v.size + 1) →
      (Vec.capacity v < v.size + 1 → Vec.pushBack cfg false v (.val a) = .ok (v, .exc .noMemory)) ∧
      (v.size + 1 ≤ Vec.capacity v → ∃ v', Vec.pushBack cfg false v (.val a) = .ok (v', .val ()) ∧ Contents v' (xs ++ [a]))) ∧
    (∀ n, Fits cfg.sz n →
      (Vec.capacity v < n → Vec.reserve cfg false v n = .ok (v, .exc .noMemory)) ∧
      (n ≤ Vec.capacity v → Vec.reserve cfg false v n = .ok (v, .val false))) ∧
    (∀ n a, Fits cfg.sz n →
      (Vec.capacity v < n → Vec.resizeA cfg false v n (.val a) = .ok (v, .exc .noMemory)) ∧
      (n ≤ Vec.capacity v → ∃ v' m, Vec.resizeA cfg false v n (.val a) = .ok (v', .val m) ∧
        Contents v' (xs.take n ++ List.replicate (n - xs.length) a))) ∧
    (∀ i n a, i ≤ v.size → Fits cfg.sz (v.size + n) →
      (Vec.capacity v < v.size + n → Vec.insertN cfg false v i n (.val a) = .ok (v, .exc .noMemory)) ∧
      (v.size + n ≤ Vec.capacity v → ∃ v', Vec.insertN cfg false v i n (.val a) = .ok (v', .val ()) ∧
        Contents v' (xs.take i ++ List.replicate n a ++ xs.drop i))) ∧
    (∀ i (ys : List α), i ≤ v.size → Fits cfg.sz (v.size + ys.length) →
      (Vec.capacity v < v.size + ys.length → Vec.insertRange cfg false v i (ys.map some) = .ok (v, .exc .noMemory)) ∧
      (v.size + ys.length ≤ Vec.capacity v → ∃ v', Vec.insertRange cfg false v i (ys.map some) = .ok (v', .val ()) ∧
        Contents v' (xs.take i ++ ys ++ xs.drop i))) := by
  obtain ⟨xs', R, F⟩ := Vec.reachable_rep hr
  obtain rfl := Vec.contents_unique (Vec.rep_contents R) hc
  have hF := Vec.fits_le F
  have hs := R.size_eq
  have hres : ∀ n, Fits cfg.sz n → v.alloc < n → Vec.reserve cfg false v n = .ok (v, .exc .noMemory) := by
    intro n hn h
    rcases Vec.reserve_spec (grant := false) R hn with ⟨h2, _⟩ | ⟨_, ⟨h2, _⟩ | ⟨_, h2⟩⟩
    · omega
    · simp at h2
    · exact h2
  have hrsz : ∀ n a, Fits cfg.sz n → v.alloc < n → Vec.resizeA cfg false v n (.val a) = .ok (v, .exc .noMemory) := by
    intro n a hn h
    rw [Vec.resizeA, hres n hn h, Vec.andThen_exc]
  simp only [Vec.capacity]
  refine ⟨fun a hn => ⟨fun h => ?_, fun h => ?_⟩, fun n hn => ⟨hres n hn, fun h => Vec.reserve_noalloc h⟩, fun n a hn => ⟨hrsz n a hn, fun h => ?_⟩,
    fun i n a hi hn => ⟨fun h => ?_, fun h => ?_⟩, fun i ys hi hn => ⟨fun h => ?_, fun h => ?_⟩⟩
  · have h63 := Vec.fits_le hn
    rw [Vec.pushBack, w64_of_lt (by omega), hres _ hn h, Vec.andThen_exc]
  · rcases Vec.pushBack_sim (cfg := cfg) (grant := false) R (by rw [← hs]; exact hn) a with ⟨v', b, h1, R', _⟩ | ⟨_, h1⟩
    · exact ⟨v', h1, Vec.rep_contents R'⟩
    · exfalso
      have h63 := Vec.fits_le hn
      rw [Vec.pushBack, w64_of_lt (by omega), Vec.reserve_noalloc h, Vec.andThen_val, Res.bind_eq_ok] at h1
      obtain ⟨_, _, h1⟩ := h1
      rw [Res.bind_eq_ok] at h1
      obtain ⟨_, _, h1⟩ := h1
      simp [Vec.ret] at h1
  · rcases Vec.resizeA_sim (cfg := cfg) (grant := false) R hn a with ⟨v', m, h1, R', _⟩ | ⟨_, h1⟩
    · exact ⟨v', m, h1, Vec.rep_contents R'⟩
    · exact absurd (Vec.exc_of_resizeA h1) (by omega)
  · have h63 := Vec.fits_le hn
    rw [Vec.insertN, if_neg (by omega), w64_of_lt (by omega), Vec.resize, hrsz _ _ hn h, Vec.andThen_exc]
  · rcases Vec.insertN_sim (cfg := cfg) (grant := false) (i := i) R (by omega) (by rw [← hs]; exact hn) a with ⟨v', b, h1, R', _⟩ | ⟨_, h1⟩
    · exact ⟨v', h1, Vec.rep_contents R'⟩
    · exact absurd h1 (Vec.insertN_noexc (by omega) (Vec.fits_le hn) h)
  · have h63 := Vec.fits_le hn
    rw [Vec.insertRange, if_neg (by omega), List.length_map, w64_of_lt (by omega), Vec.resize, hrsz _ _ hn h, Vec.andThen_exc]
  · rcases Vec.insertRange_sim (cfg := cfg) (grant := false) (i := i) R ys (by omega) (by rw [← hs]; exact hn) with ⟨v', b, h1, R', _⟩ | ⟨_, h1⟩
    · exact ⟨v', h1, Vec.rep_contents R'⟩
    · exact absurd h1 (Vec.insertRange_noexc (by omega) (by rw [List.length_map]; exact Vec.fits_le hn) (by rw [List.length_map]; exact h))

/-- a vector on which both cases occur -/
example : Vec.pushBack intCfg false ⟨.buf [some 5, some 6, some 7, none], 3, 3⟩ (.val 1)
    = .ok (⟨.buf [some 5, some 6, some 7, none], 3, 3⟩, .exc .noMemory) := by decide
example : Vec.pushBack intCfg false ⟨.buf [some 5, some 6, some 7, none, none, none, none, none], 3, 8⟩ (.val 1)
    = .ok (⟨.buf [some 5, some 6, some 7, some 1, none, none, none, none], 4, 8⟩, .val ()) := by decide

/-- C22. Iterator laws: for iterators into a live block, offset and difference are inverse, `++`/`--` are inverse and step by one, the
prefix and postfix forms differ only in the value returned, and the six comparisons are those of the positions. Arithmetic is defined
exactly while the result stays within the block or one past its end. -/
theorem C22_iterator_laws (mem : PMem) (b n : Nat) (hm : mem b = some n) (p q k : Nat) (_hp : p ≤ n) (_hq : q ≤ n) :
    (p + k ≤ n → PIter.add mem ⟨b, p⟩ k = .ok ⟨b, p + k⟩ ∧ PIter.diff mem ⟨b, p + k⟩ ⟨b, p⟩ = .ok (k : Int) ∧
      PIter.subN mem ⟨b, p + k⟩ k = .ok ⟨b, p⟩ ∧ PIter.addAssign mem ⟨b, p⟩ k = .ok (⟨b, p + k⟩, ⟨b, p + k⟩) ∧
      PIter.subAssign mem ⟨b, p + k⟩ k = .ok (⟨b, p⟩, ⟨b, p⟩)) ∧
    (n < p + k → PIter.add mem ⟨b, p⟩ k = .ub .outOfBounds) ∧
    (p < k → PIter.subN mem ⟨b, p⟩ k = .ub .outOfBounds) ∧
    (p < n → PIter.preInc mem ⟨b, p⟩ = .ok (⟨b, p + 1⟩, ⟨b, p + 1⟩) ∧ PIter.postInc mem ⟨b, p⟩ = .ok (⟨b, p + 1⟩, ⟨b, p⟩) ∧
      PIter.preDec mem ⟨b, p + 1⟩ = .ok (⟨b, p⟩, ⟨b, p⟩) ∧ PIter.postDec mem ⟨b, p + 1⟩ = .ok (⟨b, p⟩, ⟨b, p + 1⟩)) ∧
    PIter.diff mem ⟨b, p⟩ ⟨b, q⟩ = .ok ((p : Int) - q) ∧
    PIter.lt mem ⟨b, p⟩ ⟨b, q⟩ = .ok (decide (p < q)) ∧ PIter.gt mem ⟨b, p⟩ ⟨b, q⟩ = .ok (decide (q < p)) ∧
    PIter.le mem ⟨b, p⟩ ⟨b, q⟩ = .ok (decide (p ≤ q)) ∧ PIter.ge mem ⟨b, p⟩ ⟨b, q⟩ = .ok (decide (q ≤ p)) ∧
    PIter.eq ⟨b, p⟩ ⟨b, q⟩ = decide (p = q) ∧ PIter.ne ⟨b, p⟩ ⟨b, q⟩ = decide (p ≠ q) := by
  have mkok : ∀ (z : Int) (r : Nat), z = r → r ≤ n → PIter.mk? mem b z = .ok ⟨b, r⟩ := by
    intro z r hz hr
    subst hz
    simp only [PIter.mk?, hm]
    rw [if_pos (by omega)]; simp
  have mkub : ∀ z : Int, (z < 0 ∨ n < z) → PIter.mk? mem b z = .ub .outOfBounds := by
    intro z hz
    simp only [PIter.mk?, hm]
    rw [if_neg (by omega)]
  refine ⟨fun h => ?_, fun h => ?_, fun h => ?_, fun h => ?_, ?_, ?_, ?_, ?_, ?_, ?_, ?_⟩
  · refine ⟨mkok _ _ (by simp) (by omega), ?_, mkok _ _ (by simp) (by omega), ?_, ?_⟩
    · simp [PIter.diff, PIter.ptrDiff, hm]; omega
    · simp only [PIter.addAssign]; rw [mkok _ (p + k) (by simp) h]; rfl
    · simp only [PIter.subAssign]; rw [mkok _ p (by simp) (by omega)]; rfl
  · exact mkub _ (by simp; omega)
  · exact mkub _ (by simp; omega)
  · simp only [PIter.preInc, PIter.postInc, PIter.preDec, PIter.postDec]
    rw [mkok _ (p + 1) (by simp) (by omega), mkok _ p (by simp) (by omega)]
    exact ⟨rfl, rfl, rfl, rfl⟩
  · simp [PIter.diff, PIter.ptrDiff, hm]
  · simp [PIter.lt, PIter.ptrDiff, hm]
  · simp [PIter.gt, hm]
  · simp only [PIter.le, PIter.gt, hm]
    by_cases h : q < p
    · simp [h, Nat.not_le.mpr h]
    · simp [h, Nat.not_lt.mp h]
  · simp only [PIter.ge, PIter.lt, PIter.ptrDiff, hm]
    by_cases h : p < q
    · simp [h, Nat.not_le.mpr h]
    · simp [h, Nat.not_lt.mp h]
  · simp [PIter.eq]
  · simp [PIter.ne, PIter.eq]

example := C22_iterator_laws (fun b => if b = 7 then some 3 else none) 7 3 rfl 2 1 1 (by decide) (by decide)

/-- C22, which iterators may be compared: difference and order are defined if and only if both iterators point into the same block and it is live. -/
theorem C22_iterator_comparable (mem : PMem) (x y : PIter) :
    let same := x.blk = y.blk ∧ ∃ n, mem x.blk = some n
    ((∃ d, PIter.diff mem x y = .ok d) ↔ same) ∧ ((∃ r, PIter.lt mem x y = .ok r) ↔ same) ∧ ((∃ r, PIter.gt mem x y = .ok r) ↔ same) ∧
      ((∃ r, PIter.le mem x y = .ok r) ↔ same) ∧ ((∃ r, PIter.ge mem x y = .ok r) ↔ same) := by
  intro same
  have key : (x.blk = y.blk ∧ (mem x.blk).isSome = true) ↔ same := by simp [same, Option.isSome_iff_exists]
  have key' : (y.blk = x.blk ∧ (mem y.blk).isSome = true) ↔ same := by
    rw [← key]
    constructor <;> (rintro ⟨h, h'⟩; exact ⟨h.symm, by rw [← h'] ; rw [h]⟩)
  by_cases hs : same
  · have h1 := key.mpr hs
    have h2 := key'.mpr hs
    simp only [PIter.diff, PIter.lt, PIter.gt, PIter.le, PIter.ge, PIter.ptrDiff, if_pos h1, if_pos h2, Res.ok_bind]
    simp only [Res.ok.injEq, exists_eq', true_iff, hs, and_self]
  · have h1 : ¬ (x.blk = y.blk ∧ (mem x.blk).isSome = true) := fun h => hs (key.mp h)
    have h2 : ¬ (y.blk = x.blk ∧ (mem y.blk).isSome = true) := fun h => hs (key'.mp h)
    simp only [PIter.diff, PIter.lt, PIter.gt, PIter.le, PIter.ge, PIter.ptrDiff, if_neg h1, if_neg h2, hs]
    simp

/-- two iterators of a block of three elements, and one of a released block -/
example : PIter.ge (fun b => if b = 1 then some 3 else none) ⟨1, 2⟩ ⟨1, 3⟩ = .ok false ∧
    PIter.ge (fun b => if b = 1 then some 3 else none) ⟨2, 2⟩ ⟨2, 3⟩ = .ub .outOfBounds := by decide

/-- `it[k]` is the element `k` positions further, and dereferencing outside of the block is undefined. -/
theorem C22_iterator_index (heap : Nat → Option (List α)) (b : Nat) (xs : List α) (hm : heap b = some xs) (p k : Nat) :
    (∀ h : p + k < xs.length, PIter.index heap ⟨b, p⟩ k = .ok xs[p + k] ∧ PIter.deref heap ⟨b, p + k⟩ = .ok xs[p + k]) ∧
    (xs.length ≤ p + k → PIter.index heap ⟨b, p⟩ k = .ub .outOfBounds) := by
  refine ⟨fun h => ?_, fun h => ?_⟩
  · simp only [PIter.index, PIter.add, PIter.mk?, hm, Option.map_some]
    rw [if_pos (by omega)]
    have e : ((p : Int) + k).toNat = p + k := by omega
    simp [e, PIter.deref, hm, List.getElem?_eq_getElem h]
  · simp only [PIter.index, PIter.add, PIter.mk?, hm, Option.map_some]
    split
    · have e : ((p : Int) + k).toNat = p + k := by omega
      simp [e, PIter.deref, hm, List.getElem?_eq_none h]
    · rfl

example : PIter.postInc (fun b => if b = 7 then some 3 else none) ⟨7, 2⟩ = .ok (⟨7, 3⟩, ⟨7, 2⟩) := by decide

/-- C60 is false of the code: when the allocator refuses memory to a constructor, no exception is thrown. `Vector(n)` yields a vector
that claims `n` elements and whose elements cannot be accessed; the other constructors write through the null pointer at once. -/
theorem C60_constructor_refusal_false (cfg : Vec.Cfg α) (n : Nat) (hn : 0 < n) (a : α) (xs : List α) (hx : xs ≠ []) :
    (Vec.mkN cfg false n).size = n ∧ (∀ i, i < n → Vec.at_ (Vec.mkN cfg false n) i = .ub .nullDeref) ∧
    Vec.mkFill cfg false n a = .ub .nullDeref ∧ Vec.ofList cfg false xs = .ub .nullDeref ∧
    (∀ v, Contents v xs → Vec.Reachable cfg v → Vec.copy cfg false v = .ub .nullDeref) := by
  have hst : ∀ ys : List (Option α), ys ≠ [] → Vec.store (.null : VData α) 0 ys = .ub .nullDeref := by
    intro ys h; simp [Vec.store, h]
  refine ⟨rfl, fun i hi => ?_, ?_, ?_, fun v hc hr => ?_⟩
  · rw [Vec.at_, if_neg (by simp [Vec.mkN]; omega)]; rfl
  · rw [Vec.mkFill]
    simp only [Vec.calloc, if_neg Bool.false_ne_true]
    rw [hst _ (by simp; omega)]; rfl
  · rw [Vec.ofList]
    simp only [Vec.calloc, if_neg Bool.false_ne_true]
    rw [hst _ (by simpa using hx)]; rfl
  · obtain ⟨xs', R, F⟩ := Vec.reachable_rep hr
    obtain rfl := Vec.contents_unique (Vec.rep_contents R) hc
    rw [Vec.copy, Vec.readRange_rep (a := []) (b := xs') (c := []) (by simpa using R) (i := 0) (j := v.size) rfl (by simp [R.size_eq]),
      Res.ok_bind]
    simp only [Vec.calloc, if_neg Bool.false_ne_true]
    rw [hst _ (by simpa using hx)]; rfl

/-- C60, the part that holds: when memory is granted, each constructor yields the stated contents. -/
theorem C60_constructors_partial (cfg : Vec.Cfg α) (n : Nat) (a : α) (xs : List α) :
    Contents (Vec.mkN cfg true n) (List.replicate n cfg.zero) ∧
    (∃ v, Vec.mkFill cfg true n a = .ok v ∧ Contents v (List.replicate n a)) ∧
    (∃ v, Vec.ofList cfg true xs = .ok v ∧ Contents v xs) ∧
    (∀ v, Contents v xs → Vec.Reachable cfg v → ∃ w, Vec.copy cfg true v = .ok w ∧ Contents w xs) := by
  refine ⟨Vec.rep_contents (Vec.mkN_rep n), ?_, ?_, fun v hc hr => ?_⟩
  · obtain ⟨v, h, R⟩ := Vec.mkFill_rep (cfg := cfg) n a
    exact ⟨v, h, Vec.rep_contents R⟩
  · obtain ⟨v, h, R⟩ := Vec.ofList_rep (cfg := cfg) xs
    exact ⟨v, h, Vec.rep_contents R⟩
  · obtain ⟨xs', R, F⟩ := Vec.reachable_rep hr
    obtain rfl := Vec.contents_unique (Vec.rep_contents R) hc
    obtain ⟨w, h, R'⟩ := Vec.copy_sim (cfg := cfg) R
    exact ⟨w, h, Vec.rep_contents R'⟩

/-- C61 is false of the code: growth is not amortised. However many elements have been appended to an empty vector, the capacity equals
the size, and the next `push_back` asks the allocator for a new block (it throws if the allocator refuses). -/
theorem C61_growth_false (cfg : Vec.Cfg α) (xs : List α) (hn : Fits cfg.sz (xs.length + 1)) :
    ∃ v rs, Vec.run cfg (Vec.empty, Vec.empty) (xs.map fun a => (.pushBack a, true)) = .ok ((v, Vec.empty), rs) ∧
      Contents v xs ∧ Vec.capacity v = xs.length ∧
      ∀ a, Vec.pushBack cfg false v (.val a) = .ok (v, .exc .noMemory) := by
  obtain ⟨v, rs, h, R, ha⟩ := Vec.pushes cfg xs (fits_of_succ hn)
  refine ⟨v, rs, h, Vec.rep_contents R, ha, fun a => ?_⟩
  have h63 := Vec.fits_le hn
  have hs := R.size_eq
  rw [Vec.pushBack, w64_of_lt (by omega)]
  rcases Vec.reserve_spec (cfg := cfg) (grant := false) R (n := v.size + 1) (by rw [hs]; exact hn) with ⟨h2, _⟩ | ⟨_, ⟨h2, _⟩ | ⟨_, h2⟩⟩
  · omega
  · simp at h2
  · rw [h2, Vec.andThen_exc]

example : Fits 4 (([1, 2, 3] : List Nat).length + 1) := by unfold Fits; decide

/-- C61, the part that holds: after `reserve(n)` with memory granted, appending up to `n` elements in all never asks the allocator. -/
theorem C61_reserved_partial (cfg : Vec.Cfg α) {v : Vec α} (hr : Vec.Reachable cfg v) {xs : List α} (hc : Contents v xs)
    (hcap : v.size < Vec.capacity v) (a : α) :
    ∃ v', (∀ grant, Vec.pushBack cfg grant v (.val a) = .ok (v', .val ())) ∧ Contents v' (xs ++ [a]) ∧
      Vec.capacity v' = Vec.capacity v := by
  obtain ⟨xs', R, F⟩ := Vec.reachable_rep hr
  obtain rfl := Vec.contents_unique (Vec.rep_contents R) hc
  have hF := Vec.fits_le F
  have hs := R.size_eq
  unfold Vec.capacity at hcap
  obtain ⟨d, h, R'⟩ := Vec.extend_rep (ys := [a]) R (by simp; omega)
  refine ⟨{ v with data := d, size := xs'.length + 1 }, fun grant => ?_, Vec.rep_contents R', rfl⟩
  rw [Vec.pushBack, w64_of_lt (by omega), Vec.reserve_noalloc (by omega), Vec.andThen_val]
  rw [List.map_singleton] at h
  simp only [Vec.readArg, Res.ok_bind, h]
  simp only [Vec.ret, hs, w64_of_lt (by omega : xs'.length + 1 < 18446744073709551616)]

end Eni.Props
