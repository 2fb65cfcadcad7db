import Verif.Proofs.ScryptOp
import Verif.Props.Reverse
/-!
# Properties of the scrypt operation: C43-C46, C57

`A` is any implementation of SHA-256 with the documented interface; `A.digest` is the hash function it computes. The specifications are in
`Spec.Rfc` (HMAC, PBKDF2, scrypt as in the RFCs, for all parameters) and `Spec.Hex`.
-/
namespace Eni.Props
open Spec Base Json Scrypt

variable (A : Sha)

/-! ### C45 -/

/-- C45, HMAC: whatever the key and however the message is cut into updates. -/
theorem C45_hmac (K : Bytes) : ∃ c, hmacInit A K = .ok c ∧ ∀ ms : List Bytes, hmacFinal A (ms.foldl (hmacUpdate A) c) = Rfc.hmac A.digest K ms.flatten := by
  obtain ⟨c, e, h⟩ := hmacInit_spec A K
  refine ⟨c, e, fun ms => ?_⟩
  have key : ∀ (ms done : List Bytes) (c : HCtx A), HolH A K done c → HolH A K (done ++ ms) (ms.foldl (hmacUpdate A) c) := by
    intro ms
    induction ms with
    | nil => intro done c h; simpa using h
    | cons m ms ih =>
      intro done c h
      have := ih (done ++ [m]) _ (hmacUpdate_spec A h m)
      simpa using this
  simpa using hmacFinal_spec A (key ms [] c h)

/-- C45, PBKDF2: the buffer receives exactly the derived key, its other bytes are unchanged. The iteration count 2^64 - 1 is excluded: with
it the loop of the code never ends. -/
theorem C45_pbkdf2_partial (P S : Bytes) (c dkLen : Nat) (buf : Bytes) (_h1 : 1 ≤ c) (hc : c < 2 ^ 64 - 1) (hd : dkLen ≤ 32 * (2 ^ 32 - 1))
    (hb : dkLen ≤ buf.length) :
    Scrypt.pbkdf2 A P S c buf dkLen = .ok (Rfc.pbkdf2 (Rfc.hmac A.digest) P S c dkLen ++ buf.drop dkLen) :=
  pbkdf2_spec A P S c dkLen buf hc hd hb

example := C45_pbkdf2_partial A [112] [115] 2048 40 (List.replicate 64 0) (by decide) (by decide) (by decide) (by decide +kernel)

/-- C45 is false for the last iteration count: the counter of the loop wraps around and the call never returns. -/
theorem C45_last_count_false (P S : Bytes) (dkLen : Nat) (buf : Bytes) (hd : 0 < dkLen) : Scrypt.pbkdf2 A P S (2 ^ 64 - 1) buf dkLen = .diverge := by
  obtain ⟨c, e, -⟩ := hmacInit_spec A P
  unfold Scrypt.pbkdf2
  rw [e, Res.ok_bind]
  unfold pbBlocks
  simp [pbIter, hd]

example : (1 : Nat) ≤ 2048 ∧ 2048 < 2 ^ 64 - 1 ∧ 40 ≤ 32 * (2 ^ 32 - 1) ∧ 40 ≤ (List.replicate 64 (0 : UInt8)).length := by
  rw [List.length_replicate]
  decide

/-! ### C44 -/

/-- C44: for every input, every address and content of the scratchpad and every content of the local buffers. -/
theorem C44_scrypt (input output B : Bytes) (X : List UInt32) (p : Pad) (hp : p.size = padSize) (ho : output.length = 32)
    (hB : B.length = 128) (hX : X.length = 32) : core A input output B X p = .ok (Rfc.scrypt A.digest input input 1024 1 1 32) :=
  core_spec A input output B X p (p.big hp) ho hB hX

/-! ### C43 -/

/-- A string of at most 160 hexadecimal digits. -/
def HexArg (s : Bytes) : Prop := s.length ≤ 160 ∧ ∀ c ∈ s, ∃ x, Hex.digitVal c = some x

/-- The bytes denoted by a string of hexadecimal digits; with an odd number of digits a leading zero is understood. -/
def denotes (s d : Bytes) : Prop := Hex.decode s = some d ∨ Hex.decode (48 :: s) = some d

/-- C43, acceptance: exactly the strings of at most 160 hexadecimal digits. Further arguments are ignored. -/
theorem C43_accepts (E : Env) (old s : Bytes) (more : List Value) :
    ∃ b, (op A E).parse old (.str s :: more) = (s, .ok b) ∧ (b = true ↔ HexArg s) := by
  refine ⟨if s.length > 160 then false else s.all Scrypt.isHex, rfl, ?_⟩
  unfold HexArg
  by_cases h : s.length > 160
  · simp [h]
  · rw [if_neg h]
    have : s.all Scrypt.isHex = true ↔ ∀ c ∈ s, ∃ x, Hex.digitVal c = some x := by
      rw [List.all_eq_true]
      refine forall_congr' fun c => forall_congr' fun _ => ?_
      rw [(digit_cases c).1, Option.isSome_iff_exists]
    rw [this]
    exact ⟨fun h' => ⟨by omega, h'⟩, fun h' => h'.2⟩

theorem hexArg_denotes {s : Bytes} (h : HexArg s) : ∃ d, Hex.decode (if s.length % 2 ≠ 0 then 48 :: s else s) = some d ∧ d.length = (s.length + 1) / 2 := by
  obtain ⟨_, h2⟩ := h
  have hall : s.all Scrypt.isHex = true := by
    rw [List.all_eq_true]
    intro c hc
    rw [(digit_cases c).1, Option.isSome_iff_exists]
    exact h2 c hc
  by_cases ho : s.length % 2 ≠ 0
  · rw [if_pos ho]
    obtain ⟨d, hd⟩ := decode_some (48 :: s) (by simp; omega) (by simp only [List.all_cons, hall, Bool.and_true]; rfl)
    have := decode_length hd
    simp only [List.length_cons] at this
    exact ⟨d, hd, by omega⟩
  · rw [if_neg ho]
    obtain ⟨d, hd⟩ := decode_some s (by omega) hall
    have := decode_length hd
    exact ⟨d, hd, by omega⟩

theorem denotes_iff {s d : Bytes} : denotes s d ↔ Hex.decode (if s.length % 2 ≠ 0 then 48 :: s else s) = some d := by
  unfold denotes
  constructor
  · rintro (h | h)
    · have := decode_length h
      rwa [if_neg (by omega)]
    · have := decode_length h
      simp only [List.length_cons] at this
      rwa [if_pos (by omega)]
  · split
    · exact fun h => .inr h
    · exact fun h => .inl h

/-- C43, safety, and C44, C46, the result: an accepted string denotes at most 80 bytes, decoding stays inside the buffer and the string, and
the operation appends the lower-case notation of the scrypt hash of these bytes, filled up with zeros to 80. -/
theorem C43_run (E : Env) (s : Bytes) (h : HexArg s) (ret : List Value) :
    ∃ d t, denotes s d ∧ d.length ≤ 80 ∧
      Hex.Encodes (Rfc.scrypt A.digest (d ++ List.replicate (80 - d.length) 0) (d ++ List.replicate (80 - d.length) 0) 1024 1 1 32) t ∧
      (op A E).run s ret = ((if s.length % 2 ≠ 0 then 48 :: s else s), ret ++ [.str t], .ok true) := by
  obtain ⟨d, hd, hl⟩ := hexArg_denotes h
  have hl' : d.length ≤ 80 := by have := h.1; omega
  refine ⟨d, hexOut (Rfc.scrypt A.digest (d ++ List.replicate (80 - d.length) 0) (d ++ List.replicate (80 - d.length) 0) 1024 1 1 32),
    denotes_iff.mpr hd, hl', hexOut_encodes _, ?_⟩
  simp only [op, unhex_spec hd 80 hl', Res.ok_bind, core_spec A _ _ _ _ _ (E.pad.big E.hpad) E.hhash E.hB E.hX]

/-- The precondition that `parse` establishes is needed: 162 digits written to the buffer are out of bounds. -/
theorem C43_unchecked_false : unhex (List.replicate 162 48) (List.replicate 80 0) = .ub .outOfBounds := by decide +kernel

theorem hexArg_0Ff : HexArg [48, 70, 102] ∧ denotes [48, 70, 102] [0, 255] := ⟨⟨by decide, by
  simp only [List.mem_cons, List.not_mem_nil, or_false]
  rintro c (rfl | rfl | rfl)
  · exact ⟨0, rfl⟩
  · exact ⟨15, rfl⟩
  · exact ⟨15, rfl⟩⟩, .inr (by decide)⟩
example (E : Env) := C43_run A E [48, 70, 102] hexArg_0Ff.1 []

example : ¬ HexArg [48, 103] ∧ ¬ HexArg (List.replicate 161 48) := by
  constructor
  · intro h
    obtain ⟨x, hx⟩ := h.2 103 (by decide)
    cases hx
  · intro h
    have := h.1
    rw [List.length_replicate] at this
    omega

/-! ### C46 -/

/-- The hexadecimal text the operation should answer for the bytes `d`. -/
def scryptText (d t : Bytes) : Prop :=
  Hex.Encodes (Rfc.scrypt A.digest (d ++ List.replicate (80 - d.length) 0) (d ++ List.replicate (80 - d.length) 0) 1024 1 1 32) t

/-- C46, the result depends only on the bytes denoted, not on the notation, the environment or what was returned before. -/
theorem C46_denotation (E E' : Env) (s s' d : Bytes) (h : HexArg s) (h' : HexArg s') (hd : denotes s d) (hd' : denotes s' d) :
    ∃ t, scryptText A d t ∧ (∀ ret, ((op A E).run s ret).2 = (ret ++ [.str t], .ok true)) ∧
      ∀ ret, ((op A E').run s' ret).2 = (ret ++ [.str t], .ok true) := by
  have key : ∀ (E : Env) (s : Bytes), HexArg s → denotes s d → ∀ ret, ((op A E).run s ret).2 = (ret ++ [.str (hexOut (Rfc.scrypt A.digest
      (d ++ List.replicate (80 - d.length) 0) (d ++ List.replicate (80 - d.length) 0) 1024 1 1 32))], .ok true) := by
    intro E s h hd ret
    obtain ⟨d', t, h1, _, h2, h3⟩ := C43_run A E s h ret
    have : d' = d := by
      rw [denotes_iff] at h1 hd
      rw [h1] at hd
      exact Option.some.inj hd
    subst this
    rw [h3, encodes_unique h2 (hexOut_encodes _)]
  exact ⟨_, hexOut_encodes _, key E s h hd, key E' s' h' hd'⟩

example (E E' : Env) := C46_denotation A E E' [48, 70, 102] [48, 70, 102] [0, 255] hexArg_0Ff.1 hexArg_0Ff.1 hexArg_0Ff.2 hexArg_0Ff.2

theorem decode_case {s s' : Bytes} (h : s.map Hex.digitVal = s'.map Hex.digitVal) : Hex.decode s = Hex.decode s' := by
  fun_induction Hex.decode s generalizing s' with
  | case1 =>
    have : s' = [] := by simpa using h.symm
    subst this; rfl
  | case2 a =>
    match s' with
    | [] => simp at h
    | [_] => rfl
    | _ :: _ :: _ => simp at h
  | case3 a b r x y t ht hy hx ih =>
    match s' with
    | [] => simp at h
    | [_] => simp at h
    | a' :: b' :: r' =>
      simp only [List.map_cons, List.cons.injEq] at h
      obtain ⟨ha, hb, hr⟩ := h
      rw [Hex.decode, ← ha, ← hb, ← ih hr, ht, hy, hx]
  | case4 a b r hn ih =>
    match s' with
    | [] => simp at h
    | [_] => simp at h
    | a' :: b' :: r' =>
      simp only [List.map_cons, List.cons.injEq] at h
      obtain ⟨ha, hb, hr⟩ := h
      rw [Hex.decode, ← ha, ← hb, ← ih hr]
      split
      · rename_i x y t h1 h2 h3
        exact absurd h3 (hn x y t h1 h2)
      · rfl

/-- C46: strings that differ only in the case of digits, and an odd number of digits and the same digits after a `0`, denote the same
bytes (so `C46_denotation` applies). -/
theorem C46_notations (s : Bytes) (h : HexArg s) :
    (∃ d, denotes s d) ∧ (∀ s', s.map Hex.digitVal = s'.map Hex.digitVal → HexArg s' ∧ ∀ d, denotes s d → denotes s' d) ∧
    (s.length % 2 = 1 → HexArg (48 :: s) ∧ ∀ d, denotes s d → denotes (48 :: s) d) := by
  refine ⟨?_, ?_, ?_⟩
  · obtain ⟨d, hd, _⟩ := hexArg_denotes h
    exact ⟨d, denotes_iff.mpr hd⟩
  · intro s' he
    have hl : s.length = s'.length := by simpa using congrArg List.length he
    refine ⟨⟨by have := h.1; omega, ?_⟩, ?_⟩
    · intro c hc
      have : Hex.digitVal c ∈ s'.map Hex.digitVal := List.mem_map_of_mem hc
      rw [← he, List.mem_map] at this
      obtain ⟨c', hc', e⟩ := this
      rw [← e]
      exact h.2 c' hc'
    · intro d hd
      rcases hd with hd | hd
      · exact .inl (by rw [← decode_case he, hd])
      · refine .inr ?_
        rw [← decode_case (s := 48 :: s) (by simp [he]), hd]
  · intro ho
    refine ⟨⟨by have := h.1; simp; omega, ?_⟩, ?_⟩
    · intro c hc
      rcases List.mem_cons.mp hc with rfl | hc
      · exact ⟨0, rfl⟩
      · exact h.2 c hc
    · intro d hd
      rcases hd with hd | hd
      · have := decode_length hd
        omega
      · exact .inl hd

example := C46_notations [48, 70, 102] hexArg_0Ff.1

/-- C46: 64 lower-case digits. -/
theorem C46_output (d t : Bytes) (h : scryptText A d t) : t.length = 64 ∧ ∀ c ∈ t, (48 ≤ c ∧ c ≤ 57) ∨ (97 ≤ c ∧ c ≤ 102) := by
  obtain ⟨h1, h2⟩ := encodes_shape h
  refine ⟨?_, ?_⟩
  · rw [h1]
    simp only [Rfc.scrypt]
    rw [pbkdf2_length]
  · intro c hc
    have := h2 c hc
    clear hc
    revert c
    decide

/-- C46: the gas is 10 per started byte, before and after running (which may put a `0` in front of the string). -/
theorem C46_gas (E : Env) (s : Bytes) (h : HexArg s) (ret : List Value) :
    ∃ d, denotes s d ∧ (op A E).gas s = .ok (10 * d.length) ∧ (op A E).gas ((op A E).run s ret).1 = .ok (10 * d.length) := by
  obtain ⟨d, hd, hl⟩ := hexArg_denotes h
  refine ⟨d, denotes_iff.mpr hd, ?_, ?_⟩
  · simp only [op, hl, Nat.mul_comm]
  · obtain ⟨d', t, h1, _, _, h3⟩ := C43_run A E s h ret
    rw [h3]
    simp only [op, hl]
    split
    · rw [List.length_cons, show s.length + 1 + 1 = s.length + 2 by omega, show (s.length + 2) / 2 = (s.length + 1) / 2 by omega, Nat.mul_comm]
    · rw [Nat.mul_comm]

/-- the same bytes in four notations -/
example : denotes [97, 98, 99] [10, 188] ∧ denotes [65, 98, 67] [10, 188] ∧ denotes [48, 97, 98, 99] [10, 188] ∧ denotes [48, 65, 66, 67] [10, 188] :=
  ⟨.inr (by decide), .inr (by decide), .inl (by decide), .inl (by decide)⟩

/-- C43, C44 and C46 from the entry point: for every accepted string, in any JSON notation and any memory layout, the answer is the JSON text
of an array with the hash. -/
theorem C44_entry (E : Env) (L : Layout) {w t r : Bytes} (s : Bytes) (more : List Bytes) (hs : HexArg s) (hw : WS w)
    (ht : JText t (.arr ((s :: more).map .str))) (h0 : 0 ∉ w ++ (t ++ r)) :
    ∃ d x, denotes s d ∧ scryptText A d x ∧ opRun (op A E) L (w ++ (t ++ r)) = .ok (some ([91, 34] ++ x ++ [34, 93])) ∧
      opGas (op A E) L (w ++ (t ++ r)) = .ok (10 * d.length) := by
  have hp := parse_strs L (s :: more) hw ht h0
  obtain ⟨d, x, hd, _, hx, hr⟩ := C43_run A E s hs []
  obtain ⟨b, hb, hbt⟩ := C43_accepts A E [] s (more.map .str)
  cases hbt.mpr hs
  obtain ⟨hs1, hf, _⟩ := shows_strs [x]
  refine ⟨d, x, hd, hx, ?_, ?_⟩
  · have hrun := C38_entry (op A E) L _ _ hp s _ hb [.str x] hr _ hs1 hf
    rw [hrun]
    have hpr : Value.print (.arr [.str x]) = [91, 34] ++ x ++ [34, 93] := by
      have hc := (C46_output A d x hx).2
      have key : ∀ x : Bytes, (∀ c ∈ x, (48 ≤ c ∧ c ≤ 57) ∨ (97 ≤ c ∧ c ≤ 102)) → x.flatMap Value.printChar = x := by
        intro x
        induction x with
        | nil => simp
        | cons c x ih =>
          intro h
          have h1 : ∀ c : UInt8, (48 ≤ c ∧ c ≤ 57) ∨ (97 ≤ c ∧ c ≤ 102) → Value.printChar c = [c] :=
            Scrypt.forall_byte (by decide +kernel)
          rw [List.flatMap_cons, h1 c (h c (by simp)), ih fun d hd => h d (by simp [hd])]
          rfl
      simp [Value.print, Value.printElems, Value.printStr, key x hc]
    rw [hpr]
  · obtain ⟨d', hd', hg, _⟩ := C46_gas A E s hs []
    have : d' = d := by
      rw [denotes_iff] at hd hd'
      rw [hd] at hd'
      exact (Option.some.inj hd').symm
    subst this
    have hck := check_ok (H := op A E) (o := ⟨false, false, .arr ((s :: more).map .str), .arr [], (op A E).init, []⟩) rfl rfl hb
    simp only [opGas, construct_of hp, Res.ok_bind, copyTop, getGas, hck]
    exact hg

/-- `["0Ff"]` -/
example (E : Env) (L : Layout) := C44_entry A E L (w := []) (t := [91, 34, 48, 70, 102, 34, 93]) (r := []) [48, 70, 102] [] hexArg_0Ff.1 (by simp [WS])
  (.arr (Elems.one (w := []) (w' := []) (by simp [WS]) (.str (.raw (by decide) (by decide) (.raw (by decide) (by decide) (.raw (by decide) (by decide) .nil)))) (by simp [WS])))
  (by decide)

/-- C43 from the entry point: any other string argument is answered with the null pointer and gas 1500. -/
theorem C43_rejects (E : Env) (L : Layout) {w t r : Bytes} (s : Bytes) (more : List Bytes) (hs : ¬ HexArg s) (hw : WS w)
    (ht : JText t (.arr ((s :: more).map .str))) (h0 : 0 ∉ w ++ (t ++ r)) :
    opRun (op A E) L (w ++ (t ++ r)) = .ok none ∧ opGas (op A E) L (w ++ (t ++ r)) = .ok 1500 := by
  have hp := parse_strs L (s :: more) hw ht h0
  obtain ⟨b, hb, hbt⟩ := C43_accepts A E [] s (more.map .str)
  cases b with
  | true => exact absurd (hbt.mp rfl) hs
  | false =>
    have hck := check_ok (H := op A E) (o := ⟨false, false, .arr ((s :: more).map .str), .arr [], (op A E).init, []⟩) rfl rfl hb
    simp only [opGas, opRun, construct_of hp, Res.ok_bind, copyTop, getGas, start, hck, and_self]

/-- `["g"]` -/
example (E : Env) (L : Layout) := C43_rejects A E L (w := []) (t := [91, 34, 103, 34, 93]) (r := []) [103] [] (by
    intro h
    obtain ⟨x, hx⟩ := h.2 103 (by decide)
    cases hx) (by simp [WS])
  (.arr (Elems.one (w := []) (w' := []) (by simp [WS]) (.str (.raw (by decide) (by decide) .nil)) (by simp [WS]))) (by decide)

/-! ### C57 -/

/-- C57: wherever the scratchpad lies, the working area of 1024*32 words is aligned to 64 bytes and lies inside it. -/
theorem C57_area (p : Pad) : p.V % 64 = 0 ∧ p.base ≤ p.V ∧ p.V + 4 * (1024 * 32) ≤ p.base + padSize := by
  unfold Pad.V padSize
  omega

/-- C57: the size is the least that is enough for every address. -/
theorem C57_tight : ∃ p : Pad, p.size = padSize ∧ p.V + 4 * (1024 * 32) = p.base + p.size := ⟨⟨1, padSize, fun _ => none⟩, rfl, by decide⟩

/-- C57: every access of scrypt stays inside the working area, whatever the data and whatever the area contained: with a scratchpad that
consists of nothing but the working area the same result is computed. -/
theorem C57_accesses (input output B : Bytes) (X : List UInt32) (p : Pad) (hp : p.size = padSize) (word : Nat → Option UInt32)
    (ho : output.length = 32) (hB : B.length = 128) (hX : X.length = 32) :
    ∃ h, core A input output B X p = .ok h ∧ h.length = 32 ∧ core A input output B X ⟨p.V, 4 * (1024 * 32), word⟩ = .ok h := by
  refine ⟨_, core_spec A input output B X p (p.big hp) ho hB hX, ?_, core_spec A input output B X _ ?_ ho hB hX⟩
  · simp only [Rfc.scrypt]
    rw [pbkdf2_length]
  · unfold Pad.Big Pad.V
    dsimp only
    omega

/-- C57, exactly: whatever the data, a scratchpad of any address and size is used without undefined behaviour if and only if the aligned working area of 1024*32
words fits into it. -/
theorem C57_exact (input output B : Bytes) (X : List UInt32) (p : Pad) (ho : output.length = 32) (hB : B.length = 128) (hX : X.length = 32) :
    (p.V + 4 * (1024 * 32) ≤ p.base + p.size → ∃ h, core A input output B X p = .ok h) ∧
    (p.base + p.size < p.V + 4 * (1024 * 32) → ∃ u, core A input output B X p = .ub u) :=
  ⟨fun h => ⟨_, core_spec A input output B X p h ho hB hX⟩, fun h => core_small A input output B X p (by unfold Pad.Big; omega) hB hX⟩

/-- C57: one byte less is not enough for every address. -/
theorem C57_less (input output B : Bytes) (X : List UInt32) (ho : output.length = 32) (hB : B.length = 128) (hX : X.length = 32) :
    ∃ p : Pad, p.size = padSize - 1 ∧ ∃ u, core A input output B X p = .ub u :=
  ⟨⟨1, padSize - 1, fun _ => none⟩, rfl, (C57_exact A input output B X _ ho hB hX).2 (by decide)⟩

/-- A hash function with the documented interface exists (any function with 32-byte values gives one). -/
example (f : Bytes → Bytes) (hf : ∀ m, (f m).length = 32) : Sha where
  Ctx := Bytes
  init := []
  update := fun c m => c ++ m
  final := f
  digest := f
  spec := by
    intro parts
    congr 1
    have : ∀ (ps : List Bytes) (c : Bytes), ps.foldl (fun c m => c ++ m) c = c ++ ps.flatten := by
      intro ps
      induction ps with
      | nil => simp
      | cons q ps ih => intro c; simp [ih]
    simpa using this parts []
  len := hf

example : Env := ⟨List.replicate 32 7, List.replicate 128 9, List.replicate 32 1, ⟨4099, padSize, fun _ => none⟩, List.length_replicate,
  List.length_replicate, List.length_replicate, rfl⟩

end Eni.Props
