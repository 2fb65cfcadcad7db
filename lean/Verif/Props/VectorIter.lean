import Verif.Proofs.VectorIter
import Verif.Props.Vector
/-!
# Properties of `Vector`: iterators as arguments and results, ranges of the vector itself, `emplace_back`: C69, C70, C71
-/
namespace Eni.Props
open Spec
variable {α : Type}

/-! ### C69 -/

theorem diff_begin (v : IVec α) (it : PIter) (hb : it.blk = v.blk) : PIter.diff v.mem it v.begin_ = .ok (it.pos : Int) := by
  simp [PIter.diff, PIter.ptrDiff, IVec.mem, IVec.begin_, hb]

/-- C69, insertion of `n` copies of a value at an iterator: the sequence is the expected one and the returned iterator refers to the position of
insertion in the new vector; iterators stay valid exactly if the capacity was sufficient. Or memory was refused and nothing has changed. -/
theorem C69_insert (cfg : Vec.Cfg α) {v : IVec α} (hr : Vec.Reachable cfg v.vec) {xs : List α} (hc : Contents v.vec xs) (grant : Bool) {it : PIter}
    (hb : it.blk = v.blk) (hp : it.pos ≤ xs.length) (n : Nat) (a : α) (hf : Fits cfg.sz (xs.length + n)) :
    (∃ v', IVec.insertN cfg grant v it n (.val a) = .ok (v', .val ⟨v'.blk, it.pos⟩) ∧
      Contents v'.vec (xs.take it.pos ++ List.replicate n a ++ xs.drop it.pos) ∧ (v'.blk = v.blk ↔ xs.length + n ≤ Vec.capacity v.vec)) ∨
    (grant = false ∧ IVec.insertN cfg grant v it n (.val a) = .ok (v, .exc .noMemory)) := by
  obtain ⟨xs', R, F⟩ := Vec.reachable_rep hr
  obtain rfl := Vec.contents_unique (Vec.rep_contents R) hc
  have hF := Vec.fits_le hf
  have hs := R.size_eq
  unfold IVec.insertN
  rw [diff_begin v it hb, Res.ok_bind, Int.toNat_natCast]
  rcases Vec.insertN_sim (cfg := cfg) (grant := grant) R hp hf a with ⟨v', _, h, R', _⟩ | ⟨hg, h⟩
  · left
    rw [h, Res.ok_bind]
    refine ⟨v.after (w64 (v.vec.size + n)) v', rfl, Vec.rep_contents R', ?_⟩
    simp only [IVec.after, hs, Vec.capacity]
    rw [w64_of_lt (by omega)]
    split <;> simp_all
  · right
    rw [h]
    exact ⟨hg, rfl⟩

example := C69_insert intCfg (v := ⟨⟨.buf [some 5, some 6, some 7, none], 3, 3⟩, 0⟩) reach3 contents3 true (it := ⟨0, 1⟩) rfl (by decide) 2 9 (by unfold Fits; decide)

/-- C69, insertion of a range that is not part of the vector. -/
theorem C69_insert_range (cfg : Vec.Cfg α) {v : IVec α} (hr : Vec.Reachable cfg v.vec) {xs : List α} (hc : Contents v.vec xs) (grant : Bool) {it : PIter}
    (hb : it.blk = v.blk) (hp : it.pos ≤ xs.length) (ys : List α) (hf : Fits cfg.sz (xs.length + ys.length)) :
    (∃ v', IVec.insertRange cfg grant v it (ys.map some) = .ok (v', .val ⟨v'.blk, it.pos⟩) ∧
      Contents v'.vec (xs.take it.pos ++ ys ++ xs.drop it.pos) ∧ (v'.blk = v.blk ↔ xs.length + ys.length ≤ Vec.capacity v.vec)) ∨
    (grant = false ∧ IVec.insertRange cfg grant v it (ys.map some) = .ok (v, .exc .noMemory)) := by
  obtain ⟨xs', R, F⟩ := Vec.reachable_rep hr
  obtain rfl := Vec.contents_unique (Vec.rep_contents R) hc
  have hF := Vec.fits_le hf
  have hs := R.size_eq
  unfold IVec.insertRange
  rw [diff_begin v it hb, Res.ok_bind, Int.toNat_natCast]
  rcases Vec.insertRange_sim (cfg := cfg) (grant := grant) R ys hp hf with ⟨v', _, h, R', _⟩ | ⟨hg, h⟩
  · left
    rw [h, Res.ok_bind]
    refine ⟨v.after (w64 (v.vec.size + (ys.map some).length)) v', rfl, Vec.rep_contents R', ?_⟩
    simp only [IVec.after, hs, Vec.capacity, List.length_map]
    rw [w64_of_lt (by omega)]
    split <;> simp_all
  · right
    rw [h]
    exact ⟨hg, rfl⟩

example := C69_insert_range intCfg (v := ⟨⟨.buf [some 5, some 6, some 7, none], 3, 3⟩, 0⟩) reach3 contents3 false (it := ⟨0, 1⟩) rfl (by decide) [8, 9] (by unfold Fits; decide)

/-- C69, the part that holds of `erase`: the elements of the range are removed, the returned iterator refers to the element behind them, and no
iterator becomes invalid. -/
theorem C69_erase_partial (cfg : Vec.Cfg α) {v : IVec α} (hr : Vec.Reachable cfg v.vec) {xs : List α} (hc : Contents v.vec xs) {first last : PIter}
    (h1 : first.blk = v.blk) (h2 : last.blk = v.blk) (h3 : first.pos < last.pos) (h4 : last.pos < xs.length) :
    ∃ v', IVec.erase cfg v first last = .ok (v', .val first) ∧ v'.blk = v.blk ∧ Contents v'.vec (xs.take first.pos ++ xs.drop last.pos) ∧
      Vec.at_ v'.vec first.pos = .ok (v'.vec, .val (xs[last.pos])) := by
  obtain ⟨xs', R, F⟩ := Vec.reachable_rep hr
  obtain rfl := Vec.contents_unique (Vec.rep_contents R) hc
  obtain ⟨v', h, R'⟩ := Vec.erase_sim (cfg := cfg) R h3 h4
  have hC := Vec.rep_contents R'
  refine ⟨⟨v', v.blk⟩, ?_, rfl, hC, ?_⟩
  · unfold IVec.erase
    rw [diff_begin v first h1, diff_begin v last h2]
    simp only [Res.ok_bind, Int.toNat_natCast, h]
    simp [IVec.result, IVec.after, ← h1]
  · rw [hC.2 first.pos, List.getElem?_append_right (by simp; omega)]
    simp only [List.length_take, List.getElem?_drop]
    rw [Nat.min_eq_left (by omega), Nat.sub_self, Nat.add_zero, List.getElem?_eq_getElem h4]

example := C69_erase_partial intCfg (v := ⟨⟨.buf [some 5, some 6, some 7, none], 3, 3⟩, 0⟩) reach3 contents3 (first := ⟨0, 0⟩) (last := ⟨0, 2⟩) rfl rfl (by decide) (by decide)

/-- C69, the part that holds of `erase` with one iterator. -/
theorem C69_erase_one_partial (cfg : Vec.Cfg α) {v : IVec α} (hr : Vec.Reachable cfg v.vec) {xs : List α} (hc : Contents v.vec xs) {it : PIter}
    (h1 : it.blk = v.blk) (h2 : it.pos + 1 < xs.length) :
    ∃ v', IVec.erase1 cfg v it = .ok (v', .val it) ∧ v'.blk = v.blk ∧ Contents v'.vec (xs.eraseIdx it.pos) ∧
      Vec.at_ v'.vec it.pos = .ok (v'.vec, .val (xs[it.pos + 1])) := by
  obtain ⟨xs', R, F⟩ := Vec.reachable_rep hr
  obtain rfl := Vec.contents_unique (Vec.rep_contents R) hc
  have hF := Vec.fits_le F
  obtain ⟨v', h5, h6, h7, h8⟩ := C69_erase_partial cfg hr hc (first := it) (last := ⟨v.blk, it.pos + 1⟩) h1 rfl (by simp) h2
  refine ⟨v', ?_, h6, ?_, h8⟩
  · rw [← h5]
    unfold IVec.erase1 IVec.erase
    rw [diff_begin v it h1, diff_begin v ⟨v.blk, it.pos + 1⟩ rfl]
    simp only [Res.ok_bind, Int.toNat_natCast, Vec.erase1]
    rw [w64_of_lt (by omega)]
  · rwa [List.eraseIdx_eq_take_drop_succ]

example := C69_erase_one_partial intCfg (v := ⟨⟨.buf [some 5, some 6, some 7, none], 3, 3⟩, 0⟩) reach3 contents3 (it := ⟨0, 1⟩) rfl (by decide)

/-- C69 is false of `erase` at the end: `v.erase(first, v.end())` throws `OutOfRange` and removes nothing, as does erasing the last element. -/
theorem C69_erase_end_false (cfg : Vec.Cfg α) {v : IVec α} (hr : Vec.Reachable cfg v.vec) {it : PIter} (h1 : it.blk = v.blk) (h2 : it.pos < v.vec.size) :
    IVec.erase cfg v it v.end_ = .ok (v, .exc .invalidVectorIndex) ∧
    (it.pos + 1 = v.vec.size → IVec.erase1 cfg v it = .ok (v, .exc .invalidVectorIndex)) := by
  obtain ⟨e1, e2⟩ := C18_erase_to_end_false cfg hr
  constructor
  · unfold IVec.erase
    rw [diff_begin v it h1, diff_begin v v.end_ rfl]
    simp only [Res.ok_bind, Int.toNat_natCast, IVec.end_, e1 _ h2, IVec.result]
  · intro h
    have := e2 (by omega)
    rw [show v.vec.size - 1 = it.pos by omega] at this
    unfold IVec.erase1
    rw [diff_begin v it h1]
    simp only [Res.ok_bind, Int.toNat_natCast, this, IVec.result]

/-- C69 is false of empty ranges: `v.erase(it, it)`, which should do nothing, throws `OutOfRange`. -/
theorem C69_erase_empty_false (cfg : Vec.Cfg α) (v : IVec α) (it : PIter) (h1 : it.blk = v.blk) :
    IVec.erase cfg v it it = .ok (v, .exc .invalidVectorIndex) := by
  unfold IVec.erase
  rw [diff_begin v it h1]
  simp [Res.ok_bind, Vec.erase, IVec.result, Vec.throw]

/-- Iterators into another block (of another vector, or from before a reallocation) must not be used. -/
theorem C69_stale (cfg : Vec.Cfg α) (v : IVec α) (grant : Bool) (it last : PIter) (n : Nat) (a : α) (ys : List α) (h : it.blk ≠ v.blk) :
    IVec.insertN cfg grant v it n (.val a) = .ub .outOfBounds ∧ IVec.insertRange cfg grant v it (ys.map some) = .ub .outOfBounds ∧
    IVec.erase1 cfg v it = .ub .outOfBounds ∧ IVec.erase cfg v it last = .ub .outOfBounds := by
  have : PIter.diff v.mem it v.begin_ = .ub .outOfBounds := by simp [PIter.diff, PIter.ptrDiff, IVec.begin_, h]
  simp only [IVec.insertN, IVec.insertRange, IVec.erase1, IVec.erase, this]
  exact ⟨rfl, rfl, rfl, rfl⟩

example : IVec.insertN intCfg true ⟨⟨.buf [some 5, some 6, some 7, none], 3, 3⟩, 0⟩ ⟨0, 1⟩ 2 (.val 9) =
    .ok (⟨⟨.buf [some 5, some 9, some 9, some 6, some 7, none], 5, 5⟩, 1⟩, .val ⟨1, 1⟩) := by decide
example : IVec.erase intCfg ⟨⟨.buf [some 5, some 6, some 7, none], 3, 3⟩, 0⟩ ⟨0, 0⟩ ⟨0, 2⟩ =
    .ok (⟨⟨.buf [some 7, some 6, some 7, none], 1, 3⟩, 0⟩, .val ⟨0, 0⟩) := by decide
example : Vec.Reachable intCfg (⟨⟨.buf [some 5, some 6, some 7, none], 3, 3⟩, 0⟩ : IVec Nat).vec := reach3

/-! ### C70 -/

theorem split3 (xs : List α) {a b : Nat} (hab : a ≤ b) : xs = xs.take a ++ ((xs.take b).drop a ++ xs.drop b) := by
  have h := List.take_append_drop a (xs.take b)
  rw [List.take_take, Nat.min_eq_left hab] at h
  rw [← List.append_assoc, h, List.take_append_drop]

/-- C70, assignment: a vector that is assigned a range of itself holds exactly this range; no memory is needed. -/
theorem C70_assign (cfg : Vec.Cfg α) {v : Vec α} (hr : Vec.Reachable cfg v) {xs : List α} (hc : Contents v xs) (grant : Bool) {a b : Nat} (hab : a ≤ b)
    (hb : b ≤ xs.length) : ∃ v', Vec.assignOwn cfg grant v a b = .ok (v', .val ()) ∧ Contents v' ((xs.take b).drop a) := by
  obtain ⟨xs', R, F⟩ := Vec.reachable_rep hr
  obtain rfl := Vec.contents_unique (Vec.rep_contents R) hc
  have hs := R.size_eq
  have hle := R.le_alloc
  have hres : Vec.resize cfg grant v (b - a) = .ok ({ v with size := b - a }, .val false) := by
    rw [Vec.resize, Vec.resizeA, Vec.reserve_noalloc (by omega), Vec.andThen_val, if_neg (by omega)]
    rfl
  unfold Vec.assignOwn
  rw [hres, Vec.andThen_val]
  by_cases h0 : a = b
  · subst h0
    rw [if_pos rfl]
    refine ⟨_, rfl, ?_⟩
    have := Vec.rep_contents (Vec.shrink_rep R (n := 0) (by omega))
    simpa using this
  · rw [if_neg h0]
    simp only [Bool.false_eq_true, if_false]
    obtain ⟨rest, hrest⟩ := R.pre
    have hsplit : xs' = xs'.take a ++ ((xs'.take b).drop a ++ xs'.drop b) := split3 xs' hab
    have hcells : Vec.cells v.data = [] ++ ((xs'.take a).map some ++ (((xs'.take b).drop a).map some ++ ((xs'.drop b).map some ++ rest))) := by
      have := congrArg (List.map some) hsplit
      rw [hrest, this]
      simp
    obtain ⟨d, X, h1, h2, h3, h4⟩ := Vec.copyFwd_down R.nd hcells
    have hlen : (((xs'.take b).drop a).map some).length = b - a := by simp; omega
    rw [hlen] at h1
    have ha : ([] : List (Option α)).length + ((xs'.take a).map some).length = a := by simp; omega
    rw [ha] at h1
    rw [show ([] : List (Option α)).length = 0 from rfl] at h1
    refine ⟨{ v with data := d, size := b - a }, ?_, Vec.rep_contents ?_⟩
    · show (Vec.copyFwd v.data a 0 (b - a) >>= _) = _
      rw [h1]
      rfl
    · have hcap := R.cap
      have hl := congrArg List.length hcells
      refine ⟨by simp; omega, h2, by simp; omega, ?_, ⟨X, by simpa using h3⟩⟩
      show v.alloc ≤ (Vec.cells d).length
      rw [h3]
      simp only [List.nil_append, List.length_append, List.length_map] at hl h4 ⊢
      omega

example := C70_assign intCfg reach3 contents3 true (a := 1) (b := 3) (by decide) (by decide)

/-- C70 is false of `insert` (1): if the vector has to grow, the range is read from the released block. -/
theorem C70_insert_grow_false (cfg : Vec.Cfg α) {v : Vec α} (hr : Vec.Reachable cfg v) {i a b : Nat} (hi : i ≤ v.size) (hab : a < b) (_hb : b ≤ v.size)
    (hcap : Vec.capacity v < v.size + (b - a)) (hf : Fits cfg.sz (v.size + (b - a))) : Vec.insertOwn cfg true v i a b = .ub .useAfterFree := by
  obtain ⟨xs, R, F⟩ := Vec.reachable_rep hr
  have hF := Vec.fits_le hf
  have hs := R.size_eq
  rw [Vec.capacity] at hcap
  unfold Vec.insertOwn
  simp only
  rw [if_neg (by omega), w64_of_lt (by omega)]
  rw [hs] at hf hcap ⊢
  rcases Vec.resizeA_sim (cfg := cfg) (grant := true) R hf cfg.dflt with ⟨v1, m, h1, R1, hm, _⟩ | ⟨h, _⟩
  · have : m = true := hm.2 (by omega)
    subst this
    rw [Vec.resize, h1, Vec.andThen_val]
    have e1 : xs.take (xs.length + (b - a)) ++ List.replicate (xs.length + (b - a) - xs.length) cfg.dflt
        = xs.take i ++ xs.drop i ++ List.replicate (b - a) cfg.dflt := by
      rw [List.take_of_length_le (by omega), List.take_append_drop, Nat.add_sub_cancel_left]
    rw [e1] at R1
    have hs1 : v1.size = xs.length + (b - a) := by rw [R1.size_eq]; simp
    obtain ⟨g, d, _, _, h2, h3, _⟩ := Vec.gap (i := i) R1 (by simp; omega)
    rw [if_neg (by omega), h2, Res.ok_bind, h3, Res.ok_bind, if_neg (by omega), if_pos rfl]
  · simp at h

/-- C70 is false of `insert` (2): with enough capacity a range behind the position or around it is not the one that is inserted. -/
theorem C70_insert_shifted_false :
    Vec.insertOwn intCfg true ⟨.buf [some 5, some 6, some 7, none, none, none, none, none], 3, 8⟩ 0 1 3 =
      .ok (⟨.buf [some 6, some 5, some 5, some 6, some 7, none, none, none], 5, 8⟩, .val ()) ∧
    Vec.insertOwn intCfg true ⟨.buf [some 5, some 6, some 7, none, none, none, none, none], 3, 8⟩ 1 0 2 =
      .ok (⟨.buf [some 5, some 5, some 5, some 6, some 7, none, none, none], 5, 8⟩, .val ()) := by
  decide

/-- C70, the part that holds of `insert`: with enough capacity, a range that ends before the position of insertion or begins there is inserted
correctly. -/
theorem C70_insert_partial (cfg : Vec.Cfg α) {v : Vec α} (hr : Vec.Reachable cfg v) {xs : List α} (hc : Contents v xs) (grant : Bool) {i a b : Nat}
    (hi : i ≤ xs.length) (hab : a ≤ b) (hb : b ≤ xs.length) (hcap : xs.length + (b - a) ≤ Vec.capacity v) (hf : Fits cfg.sz (xs.length + (b - a)))
    (h : b ≤ i ∨ a = i) :
    ∃ v', Vec.insertOwn cfg grant v i a b = .ok (v', .val ()) ∧ Contents v' (xs.take i ++ (xs.take b).drop a ++ xs.drop i) := by
  obtain ⟨xs', R, F⟩ := Vec.reachable_rep hr
  obtain rfl := Vec.contents_unique (Vec.rep_contents R) hc
  have hs := R.size_eq
  rw [Vec.capacity] at hcap
  obtain ⟨v1, g, d, hg0, hg, h1, h2, h3, h4, R1⟩ := Vec.insertOwn_open (cfg := cfg) (grant := grant) R (i := i) (n := b - a) (by omega) hf hi
  by_cases h0 : a = b
  · subst h0
    refine ⟨{ v1 with data := d }, ?_, ?_⟩
    · unfold Vec.insertOwn
      simp only
      rw [if_neg (by omega), h1, Vec.andThen_val, if_neg h2, h3, Res.ok_bind, h4, Res.ok_bind, if_pos (by omega)]
      rfl
    · have : g = [] := List.eq_nil_of_length_eq_zero (by omega)
      subst this
      have h5 : (xs'.take a).drop a = [] := by simp
      rw [h5]
      exact Vec.rep_contents R1
  · rw [Vec.insertOwn_eq (by omega) (by omega) h1 h2 h3 h4]
    obtain ⟨rest, hrest⟩ := R1.pre
    have hcap1 := R1.cap
    simp only at hrest hcap1
    have fin : ∀ d', d' ≠ .dangling → Vec.cells d' = (xs'.take i ++ (xs'.take b).drop a ++ xs'.drop i).map some ++ rest →
        Contents { v1 with data := d' } (xs'.take i ++ (xs'.take b).drop a ++ xs'.drop i) := by
      intro d' hd' hc'
      have hz := R1.size_eq
      have hl := R1.le_alloc
      have hlen : (xs'.take i ++ (xs'.take b).drop a ++ xs'.drop i).length = (xs'.take i ++ g ++ xs'.drop i).length := by simp [hg]; omega
      refine Vec.rep_contents ⟨?_, hd', ?_, ?_, rest, hc'⟩
      · show v1.size = _; rw [hlen]; exact hz
      · show _ ≤ v1.alloc; rw [hlen]; exact hl
      · show v1.alloc ≤ (Vec.cells d').length
        rw [hc', List.length_append, List.length_map, hlen]
        rw [hrest, List.length_append, List.length_map] at hcap1
        exact hcap1
    rcases h with h | h
    · -- the range ends before the position
      have hsplit : xs'.take i = xs'.take a ++ ((xs'.take b).drop a ++ (xs'.take i).drop b) := by
        have := split3 (xs'.take i) hab
        rwa [List.take_take, List.take_take, Nat.min_eq_left h, Nat.min_eq_left (Nat.le_trans hab h)] at this
      have hcells : Vec.cells d = (xs'.take a).map some ++ (((xs'.take b).drop a).map some ++ (((xs'.take i).drop b).map some ++
          (g.map some ++ ((xs'.drop i).map some ++ rest)))) := by
        have := congrArg (List.map some) hsplit
        rw [hrest, List.map_append, List.map_append, this]
        simp only [List.map_append, List.append_assoc]
      obtain ⟨d', e1, e2, e3⟩ := Vec.copyFwd_disjoint R1.nd (by simp [hg]; omega) hcells
      have l1 : ((xs'.take a).map some).length = a := by simp; omega
      have l2 : (((xs'.take b).drop a).map some).length = b - a := by simp; omega
      have l3 : (((xs'.take i).drop b).map some).length = i - b := by simp; omega
      rw [l1, l2, l3, show a + (b - a) + (i - b) = i by omega] at e1
      refine ⟨{ v1 with data := d' }, by rw [e1]; rfl, fin d' e2 ?_⟩
      have := congrArg (List.map some) hsplit
      rw [e3, List.map_append, List.map_append, this]
      simp only [List.map_append, List.append_assoc]
    · -- the range begins at the position
      subst h
      have hgeq : g = (xs'.take b).drop a := by
        rw [hg0, List.take_append_of_le_length (by simp; omega), List.drop_take]
      have hcells : Vec.cells d = (xs'.take a).map some ++ (g.map some ++ ((xs'.drop a).map some ++ rest)) := by
        rw [hrest]
        simp
      obtain ⟨d', e1, e2, e3⟩ := Vec.copyFwd_same R1.nd hcells
      have l1 : ((xs'.take a).map some).length = a := by simp; omega
      have l2 : (g.map some).length = b - a := by simp [hg]
      rw [l1, l2] at e1
      refine ⟨{ v1 with data := d' }, by rw [e1]; rfl, fin d' e2 ?_⟩
      rw [e3, hgeq]
      simp

example : Vec.insertOwn intCfg true ⟨.buf [some 5, some 6, some 7, none, none, none, none, none], 3, 8⟩ 3 0 2 =
    .ok (⟨.buf [some 5, some 6, some 7, some 5, some 6, none, none, none], 5, 8⟩, .val ()) := by decide
example : Vec.assignOwn intCfg true ⟨.buf [some 5, some 6, some 7, none, none, none, none, none], 3, 8⟩ 1 3 =
    .ok (⟨.buf [some 6, some 7, some 7, none, none, none, none, none], 2, 8⟩, .val ()) := by decide
example : Vec.insertOwn intCfg true ⟨.buf [some 5, some 6, some 7, none], 3, 3⟩ 3 0 2 = .ub .useAfterFree :=
  C70_insert_grow_false intCfg reach3 (by decide) (by decide) (by decide) (by decide) (by decide)

/-! ### C71 -/

/-- `emplace_back` for one value after the other, memory being granted. -/
def emplaceAll (cfg : Vec.Cfg α) (s : Vec α × Nat) : List α → Res (Vec α × Nat)
  | [] => .ok s
  | x :: xs => do
    let (s, _) ← Vec.emplaceBack cfg true s x
    emplaceAll cfg s xs

theorem emplaceBack_eq (cfg : Vec.Cfg α) (grant : Bool) (v : Vec α) (k : Nat) (a : α) :
    Vec.emplaceBack cfg grant (v, k) a = (match Vec.pushBack cfg grant v (.val a) with
      | .ok (v', .val _) => .ok ((v', k + 1), .val ())
      | .ok (v', .exc e) => .ok ((v', k), .exc e)
      | .throw e => .throw e
      | .ub u => .ub u
      | .diverge => .diverge
      | .exit c => .exit c) := by
  unfold Vec.emplaceBack Vec.pushBack Vec.andThen
  cases h : Vec.reserve cfg grant v (w64 (v.size + 1)) with
  | ok x =>
    obtain ⟨v1, r⟩ := x
    cases r with
    | exc e => simp only [Res.ok_bind]
    | val m =>
      simp only [Res.ok_bind, Vec.readArg]
      cases hst : Vec.store v1.data v1.size [some a] <;> rfl
  | throw e => rfl
  | ub u => rfl
  | diverge => rfl
  | exit c => rfl

/-- C71, the part that holds: `emplace_back` has the effect of `push_back`. -/
theorem C71_effect_partial (cfg : Vec.Cfg α) {v : Vec α} (hr : Vec.Reachable cfg v) {xs : List α} (hc : Contents v xs) (grant : Bool) (k : Nat) (a : α)
    (hf : Fits cfg.sz (xs.length + 1)) :
    (∃ v' k', Vec.emplaceBack cfg grant (v, k) a = .ok ((v', k'), .val ()) ∧ Contents v' (xs ++ [a])) ∨
    (grant = false ∧ Vec.emplaceBack cfg grant (v, k) a = .ok ((v, k), .exc .noMemory)) := by
  obtain ⟨xs', R, F⟩ := Vec.reachable_rep hr
  obtain rfl := Vec.contents_unique (Vec.rep_contents R) hc
  rw [emplaceBack_eq]
  rcases Vec.pushBack_sim (cfg := cfg) (grant := grant) R hf a with ⟨v', _, h, R', _⟩ | ⟨hg, h⟩
  · left
    rw [h]
    exact ⟨v', k + 1, rfl, Vec.rep_contents R'⟩
  · right
    rw [h]
    exact ⟨hg, rfl⟩

example := C71_effect_partial intCfg reach3 contents3 false 0 9 (by unfold Fits; decide)

/-- C71 is false of the code: appending `n` elements by `emplace_back` leaves `n` objects that nobody can release, also after `clear`. -/
theorem C71_leak_false (cfg : Vec.Cfg α) (xs : List α) (hf : Fits cfg.sz xs.length) :
    ∃ v, emplaceAll cfg (Vec.empty, 0) xs = .ok (v, xs.length) ∧ Contents v xs ∧ Vec.clear v = .ok (Vec.empty, .val ()) := by
  have key : ∀ (ys : List α) (v : Vec α) (zs : List α) (k : Nat), Vec.Rep v zs → Fits cfg.sz (zs.length + ys.length) →
      ∃ v', emplaceAll cfg (v, k) ys = .ok (v', k + ys.length) ∧ Vec.Rep v' (zs ++ ys) := by
    intro ys
    induction ys with
    | nil => intro v zs k R _; exact ⟨v, rfl, by simpa using R⟩
    | cons y ys ih =>
      intro v zs k R hF
      rw [emplaceAll, emplaceBack_eq]
      rcases Vec.pushBack_sim (cfg := cfg) (grant := true) R (Vec.fits_mono hF (by simp)) y with ⟨v1, _, h, R1, _⟩ | ⟨hg, _⟩
      · rw [h]
        simp only [Res.ok_bind]
        obtain ⟨v', h1, h2⟩ := ih v1 (zs ++ [y]) (k + 1) R1 (Vec.fits_mono hF (by simp; omega))
        refine ⟨v', ?_, by simpa using h2⟩
        rw [h1, List.length_cons, Nat.add_assoc, Nat.add_comm 1]
      · cases hg
  obtain ⟨v, h1, h2⟩ := key xs Vec.empty [] 0 Vec.rep_empty (by simpa using hf)
  refine ⟨v, by simpa using h1, Vec.rep_contents (by simpa using h2), Vec.clear_sim h2⟩

example : ∃ v, emplaceAll intCfg (Vec.empty, 0) [5, 6, 7] = .ok (v, 3) ∧ Contents v [5, 6, 7] := by
  obtain ⟨v, h1, h2, _⟩ := C71_leak_false intCfg [5, 6, 7] (by decide)
  exact ⟨v, h1, h2⟩

end Eni.Props
