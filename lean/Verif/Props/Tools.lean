import Verif.Props.Cli
import Verif.Props.Scrypt
import Verif.Props.Crypto
import Verif.Props.JsonTool
/-!
# C88, C89: the tools with arbitrary operations, and with those of /repo
-/
namespace Eni.Props
open Spec Base Json Cli

variable {S : Type}

/-- The outcome of `eni_run` by the outcome of the entry point. -/
theorem tool_run (H : Hooks S) (L : Layout) (lib name p : Bytes) (args : List Bytes) (ha : positional args = [lib, name, p]) :
    (opRun H L p = .ok none → runMain (oneLib lib name H L) args = .ok ⟨[], [], 5⟩) ∧
    (∀ s, opRun H L p = .ok (some s) → runMain (oneLib lib name H L) args = .ok ⟨cstr s ++ [10], [], 0⟩) ∧
    (∀ e, opRun H L p = .throw e → runMain (oneLib lib name H L) args = .throw e) ∧
    (∀ c, opRun H L p = .exit c → runMain (oneLib lib name H L) args = .exit c) :=
  ((((C54_run (oneLib lib name H L) args).2 lib name _ ha).2 () (by simp [oneLib])).2 (runEntry H L) (by simp [oneLib]))

/-- The outcome of `eni_gas` by the outcome of the entry point. -/
theorem tool_gas (H : Hooks S) (L : Layout) (lib name p : Bytes) (args : List Bytes) (ha : positional args = [lib, name, p]) :
    (∀ n t, opGas H L p = .ok n → NatText t n → gasMain (oneLib lib name H L) args = .ok ⟨t ++ [10], [], 0⟩) ∧
    (∀ e, opGas H L p = .throw e → gasMain (oneLib lib name H L) args = .throw e) ∧
    (∀ c, opGas H L p = .exit c → gasMain (oneLib lib name H L) args = .exit c) := by
  obtain ⟨_, h1, h2, h3⟩ := ((((C54_gas (oneLib lib name H L) rfl args).2 lib name _ ha).2 () (by simp [oneLib])).2 (gasEntry H L) (by simp [oneLib]))
  refine ⟨?_, ?_, ?_⟩
  · intro n t h ht
    exact h1 n t (by rw [gasEntry, h]; rfl) ht
  · intro e h
    exact h2 e (by rw [gasEntry, h]; rfl)
  · intro c h
    exact h3 c (by rw [gasEntry, h]; rfl)

theorem cstr_one (s : Bytes) : cstr (Value.print (.arr [.str s])) = Value.print (.arr [.str s]) := cstr_of_notMem (print_strs [s]).2

/-- C88. For every operation, every command line with three positional arguments and every JSON array as the third one (in any notation,
with anything behind it): the verdict of the parse hook on the values of the array decides. If it rejects them, `eni_run` exits with 5 and
prints nothing, `eni_gas` prints 1500. If it accepts, `eni_gas` prints the number of the gas hook, and `eni_run` prints the result array of
the run hook as one JSON text and a line feed, or exits with 5 if that hook fails. -/
theorem C88_tools (H : Hooks S) (L : Layout) (hL : L.Good) (lib name w t r : Bytes) (js : List JV) (hw : WS w) (ht : JText t (.arr js)) (h0 : 0 ∉ w ++ (t ++ r))
    (hk : ShortKeys (.arr js)) (hlen : (w ++ (t ++ r)).length ≤ 1073643498) (args : List Bytes) (ha : positional args = [lib, name, w ++ (t ++ r)]) :
    ∃ vs, Shows (.arr vs) (.arr js) ∧
      (∀ st, H.parse H.init vs = (st, .ok false) → runMain (oneLib lib name H L) args = .ok ⟨[], [], 5⟩ ∧
        gasMain (oneLib lib name H L) args = .ok ⟨[49, 53, 48, 48, 10], [], 0⟩) ∧
      (∀ st, H.parse H.init vs = (st, .ok true) →
        (∀ n d, H.gas st = .ok n → NatText d n → gasMain (oneLib lib name H L) args = .ok ⟨d ++ [10], [], 0⟩) ∧
        (∀ st' out, H.run st [] = (st', out, .ok false) → runMain (oneLib lib name H L) args = .ok ⟨[], [], 5⟩) ∧
        (∀ st' out ojs, H.run st [] = (st', out, .ok true) → Shows (.arr out) (.arr ojs) → ObjFree (.arr ojs) →
          runMain (oneLib lib name H L) args = .ok ⟨Value.print (.arr out) ++ [10], [], 0⟩)) ∧
      (∀ st e, H.parse H.init vs = (st, .throw e) →
        runMain (oneLib lib name H L) args = .throw e ∧ gasMain (oneLib lib name H L) args = .throw e) := by
  obtain ⟨x, hp, hx⟩ := C24_complete L hL hw ht (by rintro ⟨z, hz⟩; cases hz) hk hlen
  have hc : cstr (w ++ (t ++ r)) = w ++ (t ++ r) := cstr_of_notMem h0
  cases hx with
  | @arr vs _ hl hi =>
    obtain ⟨r1, r2, r3, r4⟩ := tool_run H L lib name _ args ha
    obtain ⟨g1, g2, g3⟩ := tool_gas H L lib name _ args ha
    have hcon : construct H L (cstr (w ++ (t ++ r))) = .ok ⟨false, false, .arr vs, .arr [], H.init, []⟩ := by
      rw [hc, construct_of hp]; rfl
    refine ⟨vs, .arr hl hi, ?_, ?_, ?_⟩
    · intro st hs
      have hck := check_ok (H := H) (o := ⟨false, false, .arr vs, .arr [], H.init, []⟩) rfl rfl hs
      refine ⟨r1 (by simp [opRun, hcon, start, hck]), ?_⟩
      refine g1 1500 [49, 53, 48, 48] (by simp [opGas, hcon, getGas, hck]) ⟨by decide, ?_, by decide, by decide⟩
      intro c hc
      simp only [List.mem_cons, List.not_mem_nil, or_false] at hc
      rcases hc with rfl | rfl | rfl | rfl <;> constructor <;> decide
    · intro st hs
      have hck := check_ok (H := H) (o := ⟨false, false, .arr vs, .arr [], H.init, []⟩) rfl rfl hs
      refine ⟨?_, ?_, ?_⟩
      · intro n d hn hd
        exact g1 n d (by simp [opGas, hcon, getGas, hck, hn]) hd
      · intro st' out hr
        exact r1 (by simp [opRun, hcon, start, hck, Value.toArray, hr])
      · intro st' out ojs hr hso hf
        have hcl : cstr (Value.print (.arr out)) = Value.print (.arr out) := cstr_of_clean (C62_object_free_partial hso hf)
        rw [r2 (Value.print (.arr out)) (by simp [opRun, hcon, start, hck, Value.toArray, hr, hcl]), hcl]
    · intro st e hs
      have hck := check_fail (H := H) (o := ⟨false, false, .arr vs, .arr [], H.init, []⟩) rfl rfl hs (by simp)
      exact ⟨r3 e (by simp [opRun, hcon, start, hck]), g2 e (by simp [opGas, hcon, getGas, hck])⟩

/-- C88, a third argument that does not begin with a JSON text: both tools end with status 87 and print nothing. -/
theorem C88_not_json (H : Hooks S) (L : Layout) (lib name p : Bytes) (h0 : 0 ∉ p) (hlen : p.length ≤ 1073643498)
    (hn : ¬ ∃ w t r j, p = w ++ (t ++ r) ∧ WS w ∧ JText t j) (args : List Bytes) (ha : positional args = [lib, name, p]) :
    runMain (oneLib lib name H L) args = .exit 87 ∧ gasMain (oneLib lib name H L) args = .exit 87 := by
  have hc : cstr p = p := cstr_of_notMem h0
  have hp : ∃ x, parse L p = .ok ⟨false, x⟩ := by
    obtain ⟨b, x, h⟩ := C23_total L p hlen
    cases b with
    | false => exact ⟨x, h⟩
    | true =>
      obtain ⟨w, t, r, j, e, h1, h2, _⟩ := C24_sound L p hlen x h
      exact absurd ⟨w, t, r, j, e, h1, h2⟩ hn
  obtain ⟨x, hp⟩ := hp
  have hcon : construct H L (cstr p) = .exit 87 := by rw [hc]; simp [construct, hp]
  exact ⟨(tool_run H L lib name p args ha).2.2.2 87 (by simp [opRun, hcon]), (tool_gas H L lib name p args ha).2.2 87 (by simp [opGas, hcon])⟩

/-- C88 is false for a JSON text that is not an array: the tools treat it as one. -/
theorem C88_not_array_false (H : Hooks S) (L : Layout) (hL : L.Good) {t : Bytes} {j : JV} (ht : JText t j) (hk : ShortKeys j)
    (hlen : t.length ≤ 1073643498) (h0 : 0 ∉ t) (hj : ∀ js, j ≠ .arr js) (lib name : Bytes) (args : List Bytes) (ha : positional args = [lib, name, t]) :
    gasMain (oneLib lib name H L) args = .ub .badUnion := by
  have h := C39_not_array_false H L hL ht hk hlen h0 hj
  have he : gasEntry H L t = .ub .badUnion := by rw [gasEntry, h]; rfl
  unfold gasMain
  rw [(C53_iff args ⟨lib, name, t⟩).mpr ha]
  simp only [oneLib, if_true, gasSymbol_eq]
  rw [he]
  rfl

/-- `eni_run lib op -- [1]` and an operation that accepts everything and prints its results -/
example : ∃ (H : Hooks Nat) (st st' : Nat), H.parse H.init [.int 1] = (st, .ok true) ∧ H.run st [] = (st', [.int 7], .ok true) ∧ H.gas st = .ok 5 ∧
    positional [[108], [111], [45, 45], [91, 49, 93]] = [[108], [111], [91, 49, 93]] ∧ JText [91, 49, 93] (.arr [.int 1]) :=
  ⟨⟨0, fun _ _ => (1, .ok true), fun _ => .ok 5, fun _ vs => (2, vs ++ [.int 7], .ok true)⟩, 1, 2, rfl, rfl, rfl, by decide,
    by
      have h := print_text (v := .arr [.int 1]) (j := .arr [.int 1]) (.arr rfl (by
        intro i v j h1 h2
        match i with
        | 0 => simp at h1 h2; subst h1; subst h2; exact .int
        | n + 1 => simp at h1)) (.arr (by simp; exact .int)) (.arr (by simp; exact .int (by decide)))
      rwa [show Value.print (.arr [.int 1]) = [91, 49, 93] by decide +kernel] at h⟩

/-! ### C89 -/

/-- C89, scrypt: `eni_run lib scrypt '["hex"]'` prints the hash of the bytes denoted, `eni_gas` ten for each byte. -/
theorem C89_scrypt (A : Sha) (E : Scrypt.Env) (L : Layout) (lib name s : Bytes) (hs : HexArg s) (args : List Bytes)
    (ha : positional args = [lib, name, Value.print (.arr [.str s])]) :
    ∃ d x, denotes s d ∧ scryptText A d x ∧
      runMain (oneLib lib name (Scrypt.op A E) L) args = .ok ⟨[91, 34] ++ x ++ [34, 93, 10], [], 0⟩ ∧
      ∀ n, NatText n (10 * d.length) → gasMain (oneLib lib name (Scrypt.op A E) L) args = .ok ⟨n ++ [10], [], 0⟩ := by
  obtain ⟨ht, h0⟩ := print_strs [s]
  obtain ⟨d, x, h1, h2, h3, h4⟩ := C44_entry A E L (w := []) (r := []) s [] hs (by simp [WS]) ht (by simpa using h0)
  simp only [List.nil_append, List.append_nil] at h3 h4
  refine ⟨d, x, h1, h2, ?_, fun n hn => (tool_gas _ L lib name _ args ha).1 _ n h4 hn⟩
  rw [(tool_run _ L lib name _ args ha).2.1 _ h3, cstr_of_notMem]
  · simp
  · have := (C46_output A d x h2).2
    intro h
    simp only [List.mem_append, List.mem_cons, List.not_mem_nil, or_false] at h
    rcases h with (h | h) | h
    · revert h; decide
    · have := this 0 h; revert this; decide
    · revert h; decide

/-- C89, RSA: what `eni_run` prints for `rsa_encrypt` with the public key, given to `rsa_decrypt` with the private key, makes it print the
message (with the restrictions of C48), for every key pair that the two PEM texts denote. -/
theorem C89_rsa_partial (pub priv : Bytes → Option Crypto.Key) (L L' : Layout) (lib name name' : Bytes) (tpub tpriv : Bytes) (k kp : Crypto.Key)
    (hpub : pub (cstr tpub) = some kp) (hpriv : priv (cstr tpriv) = some k) (hn1 : kp.n = k.n) (he1 : kp.e = k.e) (hk : Rsa.KeyPair k.n k.e k.d)
    (m : Bytes) (hm : m.length < k.size) (h0 : 0 ∉ m) (hn : Crypto.toNum (m ++ List.replicate (k.size - m.length) 0) < k.n) :
    ∃ hex, hex.length = 2 * k.size ∧
      (∀ args, positional args = [lib, name, Value.print (.arr [.str tpub, .str m])] →
        runMain (oneLib lib name (Crypto.encryptOp pub) L) args = .ok ⟨Value.print (.arr [.str hex]) ++ [10], [], 0⟩ ∧
        ∀ n, NatText n (10 * k.size) → gasMain (oneLib lib name (Crypto.encryptOp pub) L) args = .ok ⟨n ++ [10], [], 0⟩) ∧
      (∀ args, positional args = [lib, name', Value.print (.arr [.str tpriv, .str hex])] →
        runMain (oneLib lib name' (Crypto.decryptOp priv) L') args = .ok ⟨Value.print (.arr [.str m]) ++ [10], [], 0⟩ ∧
        ∀ n, NatText n (10 * k.size) → gasMain (oneLib lib name' (Crypto.decryptOp priv) L') args = .ok ⟨n ++ [10], [], 0⟩) := by
  obtain ⟨hex, h1, h2, h3, h4, h5⟩ := C64_entry_partial pub priv L L' tpub tpriv k kp hpub hpriv hn1 he1 hk m hm h0 hn
  refine ⟨hex, h2, ?_, ?_⟩
  · intro args ha
    refine ⟨?_, fun n hn => (tool_gas _ L lib name _ args ha).1 _ n h4 hn⟩
    rw [(tool_run _ L lib name _ args ha).2.1 _ h1, cstr_one hex]
  · intro args ha
    refine ⟨?_, fun n hn => (tool_gas _ L' lib name' _ args ha).1 _ n h5 hn⟩
    rw [(tool_run _ L' lib name' _ args ha).2.1 _ h3, cstr_one m]

/-- C89, json: two runs of `eni_run` read the string with index `i` of an array inside a text, the first one giving its range. -/
theorem C89_json (E : JsonTool.Env) (L L' : Layout) (lib name : Bytes) (data t : Bytes) (js : List JV) (off : Nat) (ht : JText t (.arr js)) (hat : At data off t)
    (hl : off + t.length < 2 ^ 31) (h0 : 0 ∉ data) (top : JsonTool.Tok) (sub : List JsonTool.Tok) (hv : TVal off t top sub) (start stop : Int) (h1 : IsInt start)
    (h2 : IsInt stop) (hj : E.jsmn data start stop = some (top :: sub)) (i : Nat) (s : Bytes) (hi : js[i]? = some (.str s)) :
    ∃ a b x, RangeCode a b x ∧
      (∀ args, positional args = [lib, name, argsArray data start stop i] →
        runMain (oneLib lib name (JsonTool.op E) L) args = .ok ⟨Value.print (.arr [.str x]) ++ [10], [], 0⟩ ∧
        gasMain (oneLib lib name (JsonTool.op E) L) args = .ok ⟨[49, 54, 48, 10], [], 0⟩) ∧
      (∀ args, positional args = [lib, name, argsString data a b] →
        runMain (oneLib lib name (JsonTool.op E) L') args = .ok ⟨Value.print (.arr [.str s]) ++ [10], [], 0⟩ ∧
        ∀ n, NatText n (10 * s.length) → gasMain (oneLib lib name (JsonTool.op E) L') args = .ok ⟨n ++ [10], [], 0⟩) := by
  obtain ⟨a, b, x, e1, e2, e3, e4, e5⟩ := C65_entry E L L' data t js off ht hat hl h0 top sub hv start stop h1 h2 hj i s hi
  refine ⟨a, b, x, e3, ?_, ?_⟩
  · intro args ha
    constructor
    · rw [(tool_run _ L lib name _ args ha).2.1 _ e1, cstr_one x]
    · refine (tool_gas _ L lib name _ args ha).1 160 [49, 54, 48] e2 ⟨by decide, ?_, by decide, by decide⟩
      intro c hc
      simp only [List.mem_cons, List.not_mem_nil, or_false] at hc
      rcases hc with rfl | rfl | rfl <;> constructor <;> decide
  · intro args ha
    refine ⟨?_, fun n hn => (tool_gas _ L' lib name _ args ha).1 _ n e5 hn⟩
    rw [(tool_run _ L' lib name _ args ha).2.1 _ e4, cstr_one s]

example : HexArg [48, 70] ∧ positional [[108], [45, 118], [115], Value.print (.arr [.str [48, 70]])] = [[108], [115], Value.print (.arr [.str [48, 70]])] := by
  refine ⟨⟨by decide, ?_⟩, by decide +kernel⟩
  simp only [List.mem_cons, List.not_mem_nil, or_false]
  rintro c (rfl | rfl)
  · exact ⟨0, rfl⟩
  · exact ⟨15, rfl⟩

end Eni.Props
