import Verif.Props.Tools
import Verif.Props.OpsMem
import Verif.Props.ParserMem
/-!
# C102, C103: what the price of an operation covers
-/
namespace Eni.Props
open Spec Base Json

variable {S : Type}

/-! ### C102 -/

/-- Whenever a call of `OP_run` returns a text, `OP_gas` on the same arguments returns a price, and the text is at most `c` characters longer than the price. -/
def Priced (H : Hooks S) (c : Nat) : Prop :=
  ∀ (L : Layout) (s r : Bytes), opRun H L s = .ok (some r) → ∃ g, opGas H L s = .ok g ∧ r.length ≤ g + c

/-- What a returned text comes from. -/
theorem run_from {H : Hooks S} {L : Layout} {s r : Bytes} (h : opRun H L s = .ok (some r)) : ∃ args st st' vs, H.parse H.init args = (st, .ok true) ∧
    H.run st [] = (st', vs, .ok true) ∧ r = cstr (Value.print (.arr vs)) ∧ opGas H L s = H.gas st := by
  obtain ⟨o, h1, h2⟩ := Res.bind_eq_ok.mp h
  obtain ⟨root, hp, rfl⟩ := construct_ok h1
  simp only [opGas, h1, Res.ok_bind]
  cases ha : (copyTop root).toArray with
  | ok args =>
    cases hpar : H.parse H.init args with
    | mk st b =>
      cases b with
      | ok b =>
        have hc := check_ok (H := H) (o := ⟨false, false, copyTop root, .arr [], H.init, []⟩) rfl ha hpar
        cases b with
        | false => simp only [start, hc] at h2; cases h2
        | true =>
          simp only [start, hc, Value.toArray] at h2
          cases hr : H.run st [] with
          | mk st' x =>
            obtain ⟨vs, b⟩ := x
            simp only [hr] at h2
            cases b with
            | ok b =>
              cases b with
              | false => cases h2
              | true =>
                simp only [Res.ok.injEq, Option.some.injEq] at h2
                exact ⟨args, st, st', vs, hpar, hr, h2.symm, by simp only [getGas, hc]⟩
            | _ => cases h2
      | _ =>
        simp only [start, check, ha, hpar, Bool.false_eq_true, if_false] at h2
        cases h2
  | _ =>
    simp only [start, check, ha, Bool.false_eq_true, if_false] at h2
    cases h2

theorem one_string_length (t : Bytes) : (cstr (Value.print (.arr [.str t]))).length ≤ 6 * t.length + 4 := by
  have h1 : (cstr (Value.print (.arr [.str t]))).length ≤ (Value.print (.arr [.str t])).length := (List.takeWhile_prefix _).length_le
  have h2 := printStr_length t
  have h3 : Value.print (.arr [.str t]) = 91 :: (Value.printStr t ++ [93]) := by
    simp [Value.print, Value.printElems]
  rw [h3] at h1
  simp only [List.length_cons, List.length_append, List.length_nil] at h1
  rw [h3]
  omega

/-- C102 for reverse. -/
theorem C102_reverse : Priced Reverse.op 4 := by
  intro L s r h
  obtain ⟨args, st, st', vs, hp, hr, rfl, hg⟩ := run_from h
  simp only [Reverse.op, List.nil_append, Prod.mk.injEq, and_true] at hr
  obtain ⟨rfl, rfl⟩ := hr
  refine ⟨_, hg, ?_⟩
  have := one_string_length st.reverse
  rw [List.length_reverse] at this
  omega

example (L : Layout) : ∃ r g, opRun Reverse.op L (Value.print (.arr [.str [97, 10]])) = .ok (some r) ∧ opGas Reverse.op L (Value.print (.arr [.str [97, 10]])) = .ok g ∧
    r.length ≤ g + 4 := by
  obtain ⟨g, h1, h2⟩ := C102_reverse L _ _ (C42_involution L L [97, 10]).1
  exact ⟨_, g, (C42_involution L L [97, 10]).1, h1, h2⟩

/-- C102 for json, for every tokenizer. -/
theorem C102_json (E : JsonTool.Env) : Priced (JsonTool.op E) 4 := by
  intro L s r h
  obtain ⟨args, st, st', vs, hp, hr, rfl, hg⟩ := run_from h
  simp only [JsonTool.op, List.nil_append, Prod.mk.injEq, and_true] at hr
  obtain ⟨rfl, rfl⟩ := hr
  refine ⟨_, hg, ?_⟩
  have := one_string_length st
  omega

/-- C102 for rsa_encrypt, for every notation of keys. -/
theorem C102_encrypt (pem : Bytes → Option Crypto.Key) : Priced (Crypto.encryptOp pem) 4 := by
  intro L s r h
  obtain ⟨args, st, st', vs, hp, hr, rfl, hg⟩ := run_from h
  simp only [Crypto.encryptOp] at hr
  cases hk : st.key with
  | none => simp [hk] at hr
  | some k =>
    simp only [hk] at hr
    cases he : Crypto.pubEncrypt k st.msg with
    | none => simp [he] at hr
    | some c =>
      simp only [he, List.nil_append, Prod.mk.injEq, and_true] at hr
      obtain ⟨rfl, rfl⟩ := hr
      refine ⟨k.size * 10, by rw [hg]; simp [Crypto.encryptOp, hk], ?_⟩
      have hc : c.length = k.size := by
        rw [Crypto.pubEncrypt, Crypto.encryptWith_block, Crypto.rawEncrypt] at he
        split at he
        · cases he
        · split at he
          · cases he
          · cases he
            exact Crypto.toBin_length _ _
      have h1 : (cstr (Value.print (.arr [.str (Crypto.str2hex c)]))).length ≤ (Value.print (.arr [.str (Crypto.str2hex c)])).length := (List.takeWhile_prefix _).length_le
      have h3 : Value.print (.arr [.str (Crypto.str2hex c)]) = 91 :: 34 :: (Crypto.str2hex c ++ [34, 93]) := by
        have hx : ∀ c : Bytes, (Crypto.str2hex c).flatMap Value.printChar = Crypto.str2hex c := by
          intro c
          induction c with
          | nil => rfl
          | cons b c ih =>
            simp only [Crypto.str2hex, List.flatMap_cons, ih]
            have h1 : ∀ b : UInt8, Value.printChar (Crypto.hexDigit (b / 16)) = [Crypto.hexDigit (b / 16)] := Scrypt.forall_byte (by decide +kernel)
            have h2 : ∀ b : UInt8, Value.printChar (Crypto.hexDigit (b % 16)) = [Crypto.hexDigit (b % 16)] := Scrypt.forall_byte (by decide +kernel)
            rw [h1, h2]
            rfl
        simp [Value.print, Value.printElems, Value.printStr, hx]
      rw [h3] at h1
      simp only [List.length_cons, List.length_append, List.length_nil, Crypto.str2hex_length, hc] at h1
      rw [h3]
      omega

/-- C102 for rsa_decrypt. -/
theorem C102_decrypt (pem : Bytes → Option Crypto.Key) : Priced (Crypto.decryptOp pem) 4 := by
  intro L s r h
  obtain ⟨args, st, st', vs, hp, hr, rfl, hg⟩ := run_from h
  simp only [Crypto.decryptOp] at hr
  cases hk : st.key with
  | none => simp [hk] at hr
  | some k =>
    simp only [hk] at hr
    split at hr
    · simp at hr
    · rename_i m he
      simp only [List.nil_append, Prod.mk.injEq, and_true] at hr
      obtain ⟨rfl, rfl⟩ := hr
      refine ⟨k.size * 10, by rw [hg]; simp [Crypto.decryptOp, hk], ?_⟩
      have hm : m.length ≤ k.size := by
        simp only [Crypto.privDecrypt, Crypto.decryptWith] at he
        split at he
        · cases he
        · rename_i buf hb
          split at he
          · cases he
            have : buf.length = k.size := by
              simp only [Crypto.rawDecrypt] at hb
              split at hb
              · cases hb
              · split at hb
                · cases hb
                · cases hb
                  exact Crypto.toBin_length _ _
            rw [← this]
            exact (List.takeWhile_prefix _).length_le
          · cases he
      have := one_string_length m
      omega
    · simp only [Prod.mk.injEq] at hr
      obtain ⟨_, _, hr⟩ := hr
      cases hx : Crypto.privDecrypt k st.msg <;> rw [hx] at hr <;> cases hr

/-- C102 for scrypt: the text returned always has 68 characters. -/
theorem C102_scrypt (A : Sha) (E : Scrypt.Env) : Priced (Scrypt.op A E) 68 ∧ ∀ L s r, opRun (Scrypt.op A E) L s = .ok (some r) → r.length = 68 := by
  have key : ∀ L s r, opRun (Scrypt.op A E) L s = .ok (some r) → (∃ g, opGas (Scrypt.op A E) L s = .ok g) ∧ r.length = 68 := by
    intro L s r h
    obtain ⟨args, st, st', vs, hp, hr, rfl, hg⟩ := run_from h
    refine ⟨⟨_, hg⟩, ?_⟩
    have hst : HexArg st ∧ ∃ more, args = .str st :: more := by
      simp only [Scrypt.op] at hp
      split at hp
      · rename_i x hx
        simp only [Prod.mk.injEq] at hp
        obtain ⟨rfl, hp⟩ := hp
        cases args with
        | nil => cases hx
        | cons a more =>
          cases a <;> simp only [Value.argAt, Value.toStr, Int.zero_emod, Int.toNat_zero, List.getElem?_cons_zero, Res.ok_bind] at hx <;> try cases hx
          obtain ⟨b, hb, hbt⟩ := C43_accepts A E [] x more
          simp only [Scrypt.op, Value.argAt, Value.toStr, Int.zero_emod, Int.toNat_zero, List.getElem?_cons_zero, Res.ok_bind, Prod.mk.injEq, true_and] at hb
          rw [hb] at hp
          cases hp
          exact ⟨hbt.mp rfl, more, rfl⟩
      all_goals simp at hp
    obtain ⟨d, t, _, _, he, hrun⟩ := C43_run A E st hst.1 []
    rw [hr] at hrun
    simp only [List.nil_append, Prod.mk.injEq, and_true] at hrun
    obtain ⟨_, rfl⟩ := hrun
    obtain ⟨hl, hc⟩ := C46_output A d t he
    have key : ∀ x : Bytes, (∀ c ∈ x, (48 ≤ c ∧ c ≤ 57) ∨ (97 ≤ c ∧ c ≤ 102)) → x.flatMap Value.printChar = x ∧ 0 ∉ x := by
      intro x
      induction x with
      | nil => simp
      | cons c x ih =>
        intro h
        have h1 : ∀ c : UInt8, (48 ≤ c ∧ c ≤ 57) ∨ (97 ≤ c ∧ c ≤ 102) → Value.printChar c = [c] ∧ 0 ≠ c := Scrypt.forall_byte (by decide +kernel)
        obtain ⟨h2, h3⟩ := h1 c (h c (by simp))
        obtain ⟨h4, h5⟩ := ih fun d hd => h d (by simp [hd])
        rw [List.flatMap_cons, h2, h4]
        exact ⟨rfl, by simp [h3, h5]⟩
    obtain ⟨h1, h2⟩ := key t hc
    have hpr : Value.print (.arr [.str t]) = 91 :: 34 :: (t ++ [34, 93]) := by simp [Value.print, Value.printElems, Value.printStr, h1]
    rw [hpr, cstr_of_notMem (by simp [h2])]
    simp [hl]
  refine ⟨fun L s r h => ?_, fun L s r h => (key L s r h).2⟩
  obtain ⟨⟨g, hg⟩, hl⟩ := key L s r h
  exact ⟨g, hg, by omega⟩

example (A : Sha) (E : Scrypt.Env) (L : Layout) : ∃ r, opRun (Scrypt.op A E) L [91, 34, 34, 93] = .ok (some r) ∧ r.length = 68 := by
  have ht : JText [91, 34, 34, 93] (.arr (([] : Bytes) :: ([] : List Bytes) |>.map .str)) :=
    .arr (Elems.one (w := []) (w' := []) (by simp [WS]) (.str .nil) (by simp [WS]))
  obtain ⟨d, x, _, _, h, _⟩ := C44_entry A E L (w := []) (r := []) [] [] ⟨by simp, by simp⟩ (by simp [WS]) ht (by decide)
  exact ⟨_, h, (C102_scrypt A E).2 L _ _ h⟩

/-! ### C103 -/

theorem strBody_length {b s : Bytes} (h : StrBody b s) : b.length ≤ 6 * s.length := by
  induction h <;> simp <;> omega

/-- C103, where it holds: the price of reverse covers a text with one string and no white space, however it is written. What is missing from the full statement: all
other texts, and all other operations. -/
theorem C103_reverse_partial (L : Layout) (t s : Bytes) (ht : JText t (.str s)) (h0 : 0 ∉ t) :
    ∃ g, opGas Reverse.op L (91 :: (t ++ [93])) = .ok g ∧ (91 :: (t ++ [93])).length ≤ g + 4 := by
  have ht' : JText (91 :: (t ++ [93])) (.arr (([s] : List Bytes).map .str)) := by
    have := JText.arr (Elems.one (w := []) (w' := []) (by simp [WS]) ht (by simp [WS]))
    simpa using this
  have h := (C42_reverse L (w := []) (r := []) s [] (by simp [WS]) ht' (by simp [h0])).2
  refine ⟨_, by simpa using h, ?_⟩
  cases ht with
  | str hb =>
    have := strBody_length hb
    simp only [List.length_cons, List.length_append, List.length_nil]
    omega

example (L : Layout) := C103_reverse_partial L (Value.printStr [97]) [97] (printStr_text [97]) (by decide)

/-- Two strings as argument text. -/
def twoStrings (a b : Bytes) : Bytes := Value.print (.arr [.str a, .str b])

theorem printed_length (s : Bytes) : s.length ≤ (s.flatMap Value.printChar).length := by
  induction s with
  | nil => simp
  | cons c s ih =>
    have : 1 ≤ (Value.printChar c).length := by
      unfold Value.printChar
      split
      · simp
      · split <;> simp
    rw [List.flatMap_cons, List.length_append, List.length_cons]
    omega

theorem twoStrings_length (a b : Bytes) : b.length ≤ (twoStrings a b).length := by
  have := printed_length b
  have e : twoStrings a b = 91 :: 34 :: (a.flatMap Value.printChar ++ 34 :: 44 :: 34 :: (b.flatMap Value.printChar ++ [34, 93])) := by
    simp [twoStrings, Value.print, Value.printElems, Value.printStr]
  rw [e]
  simp only [List.length_cons, List.length_append]
  omega

/-- C103 is false of reverse: texts of any length are priced at zero, and answered. -/
theorem C103_reverse_false (L : Layout) (n : Nat) : ∃ s r, n ≤ s.length ∧ opGas Reverse.op L s = .ok 0 ∧ opRun Reverse.op L s = .ok (some r) := by
  obtain ⟨ht, h0⟩ := print_strs [[], List.replicate n 97]
  obtain ⟨h1, h2⟩ := C42_reverse L (w := []) (r := []) [] [List.replicate n 97] (by simp [WS]) ht (by simpa using h0)
  refine ⟨twoStrings [] (List.replicate n 97), _, ?_, by simpa [twoStrings] using h2, by simpa [twoStrings] using h1⟩
  have := twoStrings_length [] (List.replicate n 97)
  rwa [List.length_replicate] at this

/-- C103 is false of scrypt. -/
theorem C103_scrypt_false (A : Sha) (E : Scrypt.Env) (L : Layout) (n : Nat) :
    ∃ s r, n ≤ s.length ∧ opGas (Scrypt.op A E) L s = .ok 0 ∧ opRun (Scrypt.op A E) L s = .ok (some r) := by
  obtain ⟨ht, h0⟩ := print_strs [[], List.replicate n 97]
  obtain ⟨d, x, hd, _, h1, h2⟩ := C44_entry A E L (w := []) (r := []) [] [List.replicate n 97] ⟨by simp, by simp⟩ (by simp [WS]) ht (by simpa using h0)
  have hd0 : d = [] := by
    rw [denotes_iff] at hd
    cases hd
    rfl
  subst hd0
  refine ⟨twoStrings [] (List.replicate n 97), _, ?_, by simpa [twoStrings] using h2, by simpa [twoStrings] using h1⟩
  have := twoStrings_length [] (List.replicate n 97)
  rwa [List.length_replicate] at this

/-- C103 is false of rsa_encrypt: the price depends on the key only. -/
theorem C103_encrypt_false (pem : Bytes → Option Crypto.Key) (t : Bytes) (k : Crypto.Key) (hk : pem (cstr t) = some k) (L : Layout) (n : Nat) :
    ∃ s, n ≤ s.length ∧ opGas (Crypto.encryptOp pem) L s = .ok (10 * k.size) := by
  obtain ⟨ht, h0⟩ := print_strs [t, List.replicate n 97]
  have hp := parse_strs L (w := []) (r := []) [t, List.replicate n 97] (by simp [WS]) ht (by simpa using h0)
  refine ⟨twoStrings t (List.replicate n 97), ?_, ?_⟩
  · have := twoStrings_length t (List.replicate n 97)
    rwa [List.length_replicate] at this
  · have h1 : (Crypto.encryptOp pem).parse (Crypto.encryptOp pem).init [.str t, .str (List.replicate n 97)] = (⟨some k, List.replicate n 97⟩, .ok true) := by
      simp [Crypto.encryptOp, Value.argAt, Value.toStr, hk]
    have hck := check_ok (H := Crypto.encryptOp pem) (o := ⟨false, false, .arr [.str t, .str (List.replicate n 97)], .arr [], (Crypto.encryptOp pem).init, []⟩) rfl rfl h1
    simp only [List.nil_append, List.append_nil, List.map_cons, List.map_nil] at hp
    simp only [opGas, twoStrings, construct_of hp, Res.ok_bind, copyTop, getGas, hck]
    simp [Crypto.encryptOp, Nat.mul_comm]

example (L : Layout) (n : Nat) := C103_encrypt_false (fun _ => some smallKey) [75] smallKey rfl L n

/-- C103 is false of json: reading the empty string at the beginning of long data is priced at zero. -/
theorem C103_json_false (E : JsonTool.Env) (L : Layout) (n : Nat) :
    ∃ s r, n ≤ s.length ∧ opGas (JsonTool.op E) L s = .ok 0 ∧ opRun (JsonTool.op E) L s = .ok (some r) := by
  have h := C52_partial E [] [] [] (List.replicate n 97) .nil (by simp) (by simp)
  obtain ⟨h1, h2⟩ := string_entry E L _ _ _ ⟨by simp, by simp⟩ ⟨by simp, by simp⟩ _ h
  refine ⟨_, _, ?_, h2, h1⟩
  generalize hd : ([] : Bytes) ++ (34 :: ([] ++ [34]) ++ List.replicate n 97) = d
  have h3 : n ≤ d.length := by
    rw [← hd]
    simp only [List.length_append, List.length_cons, List.length_nil, List.length_replicate]
    omega
  have h4 := printed_length d
  have e : ∀ x y : Int, argsString d x y = 91 :: 34 :: (JsonTool.nParseString.flatMap Value.printChar ++ 34 :: 44 :: 34 :: (d.flatMap Value.printChar ++ (34 :: 44 :: (Value.print (.int x) ++ 44 ::
      (Value.print (.int y) ++ [93]))))) := by
    intro x y
    simp [argsString, Value.print, Value.printElems, Value.printStr]
  rw [e]
  simp only [List.length_cons, List.length_append]
  omega

/-- C103 is false also for the memory: for a text of `2n + 7` bytes, priced at zero, `reverse_gas` leaves more than `n²` objects in memory. -/
theorem C103_memory_false (grow : Nat → Bool) (L : Layout) (hL : L.Good) (n : Nat) : ∃ s l, s.length = 2 * n + 7 ∧
    Owner.gasM grow L Owner.reverseM s = .ok (l, .value 0) ∧ n * n < Left.total l := by
  have hw : WS [] := by simp [WS]
  have ht := JText.arr (Elems.cons hw (JText.str .nil) hw (Elems.one hw (Json.nested_text n) hw))
  have h0 : (0 : UInt8) ∉ nestedText n := by simp [nestedText]
  obtain ⟨g, _, _, _, _, _, h4, _⟩ := C94_amount_partial grow L hL Owner.reverseM (w := []) (r := []) hw ht (by simp [h0])
  obtain ⟨l, e, h⟩ := h4 [] 0 (by simp [reads, Owner.reverseM, JV.part]) rfl
  refine ⟨_, l, ?_, e, ?_⟩
  · simp [nestedText]
    omega
  · rw [h]
    obtain ⟨_, _, h3⟩ := nested_kept n
    have hl : (nested n).lost ≤ argLoss (.arr [.str [], nested n]) := by
      simp only [argLoss, JV.lost, lostElems]
      omega
    have : 2 * (n * n) ≤ 3 * (n * (n + 1)) := by
      rw [Nat.mul_add]
      omega
    omega

end Eni.Props
