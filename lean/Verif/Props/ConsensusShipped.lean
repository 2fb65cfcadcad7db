import Verif.Props.ConsensusFile
import Verif.Props.Tools
import Verif.Props.Promise
import Mathlib.Data.Fintype.BigOperators
/-!
# C132: what the project's own consensus test exercises
-/
namespace Eni.Props
open Spec Base Json Cli Consensus

variable {S : Type}

/-- `string.ascii_uppercase + string.digits`, the characters of `rands` (consensus.py 84-88). -/
def upperDigits : Finset UInt8 := (ascii "ABCDEFGHIJKLMNOPQRSTUVWXYZ0123456789").toFinset

/-- `string.hexdigits`, the characters of `randh` (consensus.py 92-96). -/
def hexDigits : Finset UInt8 := (ascii "0123456789abcdefABCDEF").toFinset

theorem upperDigits_plain {x : Bytes} (h : ∀ c ∈ x, c ∈ upperDigits) : PlainText x ∧ (0 : UInt8) ∉ x :=
  ⟨⟨fun hc => absurd (h _ hc) (by decide +kernel), fun hc => absurd (h _ hc) (by decide +kernel)⟩, fun hc => absurd (h _ hc) (by decide +kernel)⟩

theorem hexDigits_plain {x : Bytes} (h : ∀ c ∈ x, c ∈ hexDigits) : PlainText x ∧ (0 : UInt8) ∉ x :=
  ⟨⟨fun hc => absurd (h _ hc) (by decide +kernel), fun hc => absurd (h _ hc) (by decide +kernel)⟩, fun hc => absurd (h _ hc) (by decide +kernel)⟩

/-- The parameters that the script makes of some strings, read by `eni_run`. -/
theorem shipped_params (L : Layout) (gen : UInt8 → Bytes → Option Bytes) (args xs : List Bytes) (hx : List.Forall₂ (fun a x => expandArg gen a = some x) args xs)
    (hp : ∀ x ∈ xs, PlainText x ∧ (0 : UInt8) ∉ x) :
    ∃ t, expand gen args = some t ∧ JText t (.arr (xs.map .str)) ∧ (0 : UInt8) ∉ t ∧ parse L (cstr t) = .ok ⟨true, .arr (xs.map .str)⟩ := by
  have hall : expandAll gen args = some xs := by
    clear hp
    induction hx with
    | nil => rfl
    | cons h _ ih => simp [expandAll, h, ih]
  obtain ⟨t, h1, h2⟩ := C68_partial gen args xs hx fun x hx => (hp x hx).1
  have ht : t = 91 :: (joinQuoted xs ++ [93]) := by
    simp only [expand, hall, Option.bind_eq_bind, Option.bind_some, Option.some.injEq] at h1
    exact h1.symm
  have hj : ∀ xs : List Bytes, (∀ x ∈ xs, (0 : UInt8) ∉ x) → (0 : UInt8) ∉ joinQuoted xs := by
    intro xs
    induction xs with
    | nil => intro _; simp [joinQuoted]
    | cons x xs ih =>
      intro h
      have h1 := h x List.mem_cons_self
      have h2 := ih fun y hy => h y (List.mem_cons_of_mem _ hy)
      cases xs with
      | nil => simp [joinQuoted, h1]
      | cons y ys => simp [joinQuoted, h1, h2]
  have h0 : (0 : UInt8) ∉ t := by
    rw [ht]
    simp [hj xs fun x hx => (hp x hx).2]
  refine ⟨t, h1, h2, h0, ?_⟩
  have := parse_strs L (w := []) (r := []) xs (by simp [WS]) h2 (by simpa using h0)
  simpa using this

/-- The outcome depends on the value that was read only. -/
theorem opRun_of_parse (H : Hooks S) (L : Layout) (s t : Bytes) (h : parse L (cstr s) = parse L (cstr t)) : opRun H L s = opRun H L t := by
  simp only [opRun, construct, h]

/-- Among the random texts of `rands` those of scrypt are the ones without a letter behind F. -/
theorem upper_hex {x : Bytes} (h : ∀ c ∈ x, c ∈ upperDigits) (hl : x.length ≤ 160) : HexArg x ↔ ∀ c ∈ x, c ∉ (ascii "GHIJKLMNOPQRSTUVWXYZ") := by
  have key : ∀ c : UInt8, c ∈ upperDigits → ((∃ v, Hex.digitVal c = some v) ↔ c ∉ (ascii "GHIJKLMNOPQRSTUVWXYZ")) := by
    intro c hc
    have : ∀ c : UInt8, c ∈ upperDigits → ((Hex.digitVal c).isSome = true ↔ c ∉ (ascii "GHIJKLMNOPQRSTUVWXYZ")) := Scrypt.forall_byte (by decide +kernel)
    rw [← this c hc, Option.isSome_iff_exists]
  exact ⟨fun hx c hc => (key c (h c hc)).mp (hx.2 c hc), fun hx => ⟨hl, fun c hc => (key c (h c hc)).mpr (hx c hc)⟩⟩

theorem scrypt_refused (A : Sha) (E : Scrypt.Env) (L : Layout) (t x : Bytes) (hp : parse L (cstr t) = .ok ⟨true, .arr [.str x]⟩) (hx : ¬ HexArg x) :
    opRun (Scrypt.op A E) L t = .ok none := by
  obtain ⟨b, hb, hbt⟩ := C43_accepts A E (Scrypt.op A E).init x []
  have hf : b = false := by
    cases b with
    | false => rfl
    | true => exact absurd (hbt.mp rfl) hx
  subst hf
  have hck := check_ok (H := Scrypt.op A E) (o := ⟨false, false, .arr [.str x], .arr [], (Scrypt.op A E).init, []⟩) rfl rfl hb
  simp only [opRun, construct_of hp, Res.ok_bind, copyTop, start, hck]

theorem repeat_const (p : Proc) (hp : Readable p) (run : Nat → Proc) (n : Nat) (hn : 2 ≤ n) (h : ∀ i < n, run i = p) : repeat_ run n = some true :=
  (C56_success run n).mpr ⟨hn, fun i hi => by rw [h i hi, h 0 (by omega)], by rw [h 0 (by omega)]; exact hp⟩

/-- C132 is false of scrypt. The only case of the project's list that is run for it is `s:160`. If one letter behind F is among its random characters, `eni_run`
ends with status 5 and prints nothing, whatever SHA-256 and the memory do; the script counts that as a success, even if every execution used a different SHA-256. -/
theorem C132_scrypt_false (L : Layout) (lib name x : Bytes) (gen : UInt8 → Bytes → Option Bytes) (hg : gen 115 (ascii "160") = some x)
    (hx : ∀ c ∈ x, c ∈ upperDigits) (c : UInt8) (hc : c ∈ x) (hcx : c ∈ ascii "GHIJKLMNOPQRSTUVWXYZ") :
    ∃ t, expand gen [ascii "s:160"] = some t ∧ ∀ args, positional args = [lib, name, t] →
      (∀ A E, runMain (oneLib lib name (Scrypt.op A E) L) args = .ok ⟨[], [], 5⟩) ∧
      ∀ (A : Nat → Sha) (E : Nat → Scrypt.Env) (run : Nat → Proc) (n : Nat), 2 ≤ n →
        (∀ i < n, ∃ d, runMain (oneLib lib name (Scrypt.op (A i) (E i)) L) args = .ok d ∧ run i = ⟨d.status, d.out, d.err⟩) → repeat_ run n = some true := by
  have ha : expandArg gen (ascii "s:160") = some x := hg
  obtain ⟨t, h1, -, -, h4⟩ := shipped_params L gen [ascii "s:160"] [x] (.cons ha .nil) (by simpa using upperDigits_plain hx)
  have hn : ¬ HexArg x := by
    intro h
    by_cases hl : x.length ≤ 160
    · exact (upper_hex hx hl).mp h c hc hcx
    · exact hl h.1
  have key : ∀ args, positional args = [lib, name, t] → ∀ A E, runMain (oneLib lib name (Scrypt.op A E) L) args = .ok ⟨[], [], 5⟩ :=
    fun args hargs A E => (tool_run _ L lib name t args hargs).1 (scrypt_refused A E L t x h4 hn)
  refine ⟨t, h1, fun args hargs => ⟨key args hargs, fun A E run n hn2 hrun => ?_⟩⟩
  refine repeat_const ⟨5, [], []⟩ ⟨"", "", by decide +kernel, by decide +kernel⟩ run n hn2 fun i hi => ?_
  obtain ⟨d, hd, hr⟩ := hrun i hi
  rw [key args hargs] at hd
  cases hd
  exact hr

open scoped Classical in
/-- C132: of the 36^160 random texts, 16^160 are accepted by scrypt, fewer than one in 10^56. -/
theorem C132_chance : (Fintype.piFinset fun _ : Fin 160 => upperDigits).card = 36 ^ 160 ∧
    ((Fintype.piFinset fun _ : Fin 160 => upperDigits).filter fun f => HexArg (List.ofFn f)).card = 16 ^ 160 ∧ 10 ^ 56 * 16 ^ 160 < 36 ^ 160 := by
  have e : ((Fintype.piFinset fun _ : Fin 160 => upperDigits).filter fun f => HexArg (List.ofFn f)) =
      Fintype.piFinset fun _ : Fin 160 => (ascii "ABCDEF0123456789").toFinset := by
    ext f
    have hsub : ∀ c : UInt8, c ∈ (ascii "ABCDEF0123456789").toFinset ↔ c ∈ upperDigits ∧ c ∉ ascii "GHIJKLMNOPQRSTUVWXYZ" := Scrypt.forall_byte (by decide +kernel)
    simp only [Finset.mem_filter, Fintype.mem_piFinset, hsub]
    have hm : (∀ i, f i ∈ upperDigits) → ∀ c ∈ List.ofFn f, c ∈ upperDigits := by
      intro h c hc
      obtain ⟨i, rfl⟩ := List.mem_ofFn.mp hc
      exact h i
    constructor
    · rintro ⟨h1, h2⟩ i
      exact ⟨h1 i, (upper_hex (hm h1) (le_of_eq List.length_ofFn)).mp h2 (f i) (List.mem_ofFn.mpr ⟨i, rfl⟩)⟩
    · intro h
      refine ⟨fun i => (h i).1, (upper_hex (hm fun i => (h i).1) (le_of_eq List.length_ofFn)).mpr ?_⟩
      intro c hc
      obtain ⟨i, rfl⟩ := List.mem_ofFn.mp hc
      exact (h i).2
  refine ⟨?_, ?_, by decide +kernel⟩
  · rw [Fintype.card_piFinset_const, show upperDigits.card = 36 by decide +kernel]
  · rw [e, Fintype.card_piFinset_const, show ((ascii "ABCDEF0123456789").toFinset).card = 16 by decide +kernel]

/-- C132 would hold of scrypt with the case that is lost: every random text of `randh` has a result. -/
theorem C132_hex (A : Sha) (E : Scrypt.Env) (L : Layout) (lib name x : Bytes) (gen : UInt8 → Bytes → Option Bytes) (hg : gen 104 (ascii "160") = some x)
    (hx : ∀ c ∈ x, c ∈ hexDigits) (hl : x.length = 160) :
    ∃ t d y, expand gen [ascii "h:160"] = some t ∧ denotes x d ∧ scryptText A d y ∧ ∀ args, positional args = [lib, name, t] →
      runMain (oneLib lib name (Scrypt.op A E) L) args = .ok ⟨[91, 34] ++ y ++ [34, 93, 10], [], 0⟩ := by
  have ha : expandArg gen (ascii "h:160") = some x := hg
  obtain ⟨t, h1, h2, h3, -⟩ := shipped_params L gen [ascii "h:160"] [x] (.cons ha .nil) (by simpa using hexDigits_plain hx)
  have hh : HexArg x := by
    refine ⟨by omega, fun c hc => Option.isSome_iff_exists.mp ?_⟩
    have : ∀ c : UInt8, c ∈ hexDigits → (Hex.digitVal c).isSome = true := Scrypt.forall_byte (by decide +kernel)
    exact this c (hx c hc)
  obtain ⟨d, y, h5, h6, h7, -⟩ := C44_entry A E L (w := []) (r := []) x [] hh (by simp [WS]) h2 (by simpa using h3)
  simp only [List.nil_append, List.append_nil] at h7
  refine ⟨t, d, y, h1, h5, h6, fun args hargs => ?_⟩
  rw [(tool_run _ L lib name t args hargs).2.1 _ h7, cstr_of_notMem]
  · simp
  · have := (C46_output A d y h6).2
    intro h
    simp only [List.mem_append, List.mem_cons, List.not_mem_nil, or_false] at h
    rcases h with (h | h) | h
    · revert h; decide
    · have := this 0 h; revert this; decide
    · revert h; decide

/-- C132 holds of reverse: every random text is reversed and printed. -/
theorem C132_reverse (L : Layout) (lib name x : Bytes) (gen : UInt8 → Bytes → Option Bytes) (hg : gen 115 (ascii "32") = some x) (hx : ∀ c ∈ x, c ∈ upperDigits) :
    ∃ t, expand gen [ascii "s:32"] = some t ∧ ∀ args, positional args = [lib, name, t] →
      runMain (oneLib lib name Reverse.op L) args = .ok ⟨Value.print (.arr [.str x.reverse]) ++ [10], [], 0⟩ := by
  have ha : expandArg gen (ascii "s:32") = some x := hg
  obtain ⟨t, h1, h2, h3, -⟩ := shipped_params L gen [ascii "s:32"] [x] (.cons ha .nil) (by simpa using upperDigits_plain hx)
  refine ⟨t, h1, fun args hargs => ?_⟩
  have h := C42_reverse L (w := []) (r := []) x [] (by simp [WS]) h2 (by simpa using h3)
  simp only [List.nil_append, List.append_nil] at h
  have hc : cstr (Value.print (.arr [.str x.reverse])) = Value.print (.arr [.str x.reverse]) := cstr_of_notMem (print_strs [x.reverse]).2
  rw [(tool_run _ L lib name t args hargs).2.1 _ h.1, hc]

theorem toNum_lt_first (c : UInt8) (b : Bytes) : Crypto.toNum (c :: b) < (c.toNat + 1) * 256 ^ b.length := by
  induction b using List.reverseRecOn with
  | nil => simp [Crypto.toNum]
  | append_singleton b x ih =>
    rw [← List.cons_append, Crypto.toNum_snoc, List.length_append, List.length_singleton, pow_succ]
    have := x.toNat_lt
    have e : (c.toNat + 1) * (256 ^ b.length * 256) = 256 * ((c.toNat + 1) * 256 ^ b.length) := by ring
    rw [e]
    omega

/-- C132 holds of rsa_encrypt for every key whose modulus has its first bit set, as the one in data/pub.pem has (its first byte is 166): every random text is
encrypted. `p` is the text of the key file. -/
theorem C132_encrypt (pem : Bytes → Option Crypto.Key) (L : Layout) (lib name p x : Bytes) (k : Crypto.Key) (hk : pem p = some k)
    (hn : 0 < k.size) (htop : 128 * 256 ^ (k.size - 1) ≤ k.n) (hp : PlainText p) (hp0 : (0 : UInt8) ∉ p)
    (gen : UInt8 → Bytes → Option Bytes) (hf : gen 102 (ascii "data/pub.pem") = some p) (hg : gen 115 (ascii "17") = some x) (hx : ∀ c ∈ x, c ∈ upperDigits) :
    ∃ t y, expand gen [ascii "f:data/pub.pem", ascii "s:17"] = some t ∧ Crypto.pubEncrypt k x = some y ∧ ∀ args, positional args = [lib, name, t] →
      runMain (oneLib lib name (Crypto.encryptOp pem) L) args = .ok ⟨Value.print (.arr [.str (Crypto.str2hex y)]) ++ [10], [], 0⟩ := by
  have ha : expandArg gen (ascii "f:data/pub.pem") = some p := hf
  have hb : expandArg gen (ascii "s:17") = some x := hg
  obtain ⟨t, h1, -, -, h4⟩ := shipped_params L gen [ascii "f:data/pub.pem", ascii "s:17"] [p, x] (.cons ha (.cons hb .nil))
    (by simpa using ⟨⟨hp, hp0⟩, upperDigits_plain hx⟩)
  have hpc : cstr p = p := cstr_of_notMem hp0
  have hlt : Crypto.toNum (x.take k.size ++ List.replicate (k.size - x.length) 0) < k.n := by
    have hl : (x.take k.size ++ List.replicate (k.size - x.length) (0 : UInt8)).length = k.size := by
      simp only [List.length_append, List.length_take, List.length_replicate]; omega
    have hmem : ∀ c ∈ x.take k.size ++ List.replicate (k.size - x.length) (0 : UInt8), c.toNat + 1 ≤ 128 := by
      intro c hc
      have hall : ∀ c : UInt8, c ∈ upperDigits ∨ c = 0 → c.toNat + 1 ≤ 128 := Scrypt.forall_byte (by decide +kernel)
      rcases List.mem_append.mp hc with h | h
      · exact hall c (.inl (hx c (List.mem_of_mem_take h)))
      · exact hall c (.inr (List.eq_of_mem_replicate h))
    generalize x.take k.size ++ List.replicate (k.size - x.length) (0 : UInt8) = blk at hl hmem
    cases blk with
    | nil => simp at hl; omega
    | cons c b =>
      have h5 := toNum_lt_first c b
      have h6 := hmem c List.mem_cons_self
      have h7 : b.length = k.size - 1 := by simp at hl; omega
      rw [h7] at h5
      exact lt_of_lt_of_le h5 (le_trans (Nat.mul_le_mul_right _ h6) htop)
  have hrun : ∃ r, opRun (Crypto.encryptOp pem) L (twoArgs p x) = .ok (some r) :=
    (C131_encrypt_partial pem L p x k (by rw [hpc]; exact hk)).mpr hlt
  have he := C64_encrypt pem L p x
  rw [hpc, hk] at he
  cases hy : Crypto.pubEncrypt k x with
  | none =>
    obtain ⟨r, hr⟩ := hrun
    rw [hr] at he
    simp [hy] at he
  | some y =>
    simp only [hy] at he
    refine ⟨t, y, h1, rfl, fun args hargs => ?_⟩
    have hsame : opRun (Crypto.encryptOp pem) L t = opRun (Crypto.encryptOp pem) L (twoArgs p x) :=
      opRun_of_parse _ L _ _ (by rw [h4, parse_two]; rfl)
    have hc : cstr (Value.print (.arr [.str (Crypto.str2hex y)])) = Value.print (.arr [.str (Crypto.str2hex y)]) :=
      cstr_of_notMem (print_strs [Crypto.str2hex y]).2
    rw [(tool_run _ L lib name t args hargs).2.1 _ (hsame.trans he), hc]

/-- C132 for rsa_decrypt: the ciphertext `x` in data/rsa has a result if it is a block below the modulus and the decrypted block contains a NUL (for the files of the
project it is "Hello World!" and 244 times NUL). `p` is the text of the key file. -/
theorem C132_decrypt (pem : Bytes → Option Crypto.Key) (L : Layout) (lib name p x c : Bytes) (k : Crypto.Key) (hk : pem p = some k)
    (hp : PlainText p ∧ (0 : UInt8) ∉ p) (hx : PlainText x ∧ (0 : UInt8) ∉ x) (hc : Crypto.hex2str x = .ok (some c)) (hl : c.length ≤ k.size)
    (hn : Crypto.toNum c < k.n) (h0 : 0 ∈ Crypto.toBin k.size (Crypto.toNum c ^ k.d % k.n))
    (gen : UInt8 → Bytes → Option Bytes) (hf : gen 102 (ascii "data/priv.pem") = some p) (hg : gen 102 (ascii "data/rsa") = some x) :
    ∃ t, expand gen [ascii "f:data/priv.pem", ascii "f:data/rsa"] = some t ∧ ∀ args, positional args = [lib, name, t] →
      runMain (oneLib lib name (Crypto.decryptOp pem) L) args =
        .ok ⟨Value.print (.arr [.str (cstr (Crypto.toBin k.size (Crypto.toNum c ^ k.d % k.n)))]) ++ [10], [], 0⟩ := by
  have ha : expandArg gen (ascii "f:data/priv.pem") = some p := hf
  have hb : expandArg gen (ascii "f:data/rsa") = some x := hg
  obtain ⟨t, h1, -, -, h4⟩ := shipped_params L gen [ascii "f:data/priv.pem", ascii "f:data/rsa"] [p, x] (.cons ha (.cons hb .nil)) (by simpa using ⟨hp, hx⟩)
  have he := C131_decrypt_partial pem L p x c k (by rw [cstr_of_notMem hp.2]; exact hk) hc
  rw [if_neg (by omega), if_pos h0] at he
  refine ⟨t, h1, fun args hargs => ?_⟩
  have hsame : opRun (Crypto.decryptOp pem) L t = opRun (Crypto.decryptOp pem) L (twoArgs p x) :=
    opRun_of_parse _ L _ _ (by rw [h4, parse_two]; rfl)
  generalize cstr (Crypto.toBin k.size (Crypto.toNum c ^ k.d % k.n)) = out at he ⊢
  have hcs : cstr (Value.print (.arr [.str out])) = Value.print (.arr [.str out]) := cstr_of_notMem (print_strs [out]).2
  rw [(tool_run _ L lib name t args hargs).2.1 _ (hsame.trans he), hcs]

/-! Cases that meet the hypotheses -/

/-- Random texts: 159 times A and one Z; 160 times F; WORLD. -/
def demoGen (k : UInt8) (r : Bytes) : Option Bytes :=
  if k = 115 ∧ r = ascii "160" then some (List.replicate 159 65 ++ [90]) else if k = 104 then some (List.replicate 160 70)
  else if k = 115 then some (ascii "WORLD") else some (ascii "KEY")

example (L : Layout) (lib name : Bytes) := C132_scrypt_false L lib name (List.replicate 159 65 ++ [90]) demoGen (by decide +kernel) (by decide +kernel) 90
  (by decide +kernel) (by decide +kernel)
example (A : Sha) (E : Scrypt.Env) (L : Layout) (lib name : Bytes) := C132_hex A E L lib name (List.replicate 160 70) demoGen (by decide +kernel) (by decide +kernel)
  (by decide +kernel)
example (L : Layout) (lib name : Bytes) := C132_reverse L lib name (ascii "WORLD") demoGen (by decide +kernel) (by decide +kernel)
/-- A modulus of one byte, 253. -/
example (L : Layout) (lib name : Bytes) := C132_encrypt (fun _ => some ⟨253, 3, 147⟩) L lib name (ascii "KEY") (ascii "WORLD") ⟨253, 3, 147⟩ rfl (by decide +kernel)
  (by decide +kernel) ⟨by decide +kernel, by decide +kernel⟩ (by decide +kernel) demoGen (by decide +kernel) (by decide +kernel) (by decide +kernel)
/-- A modulus of two bytes, 65521, with exponent 1. -/
example (L : Layout) (lib name : Bytes) := C132_decrypt (fun _ => some ⟨65521, 1, 1⟩) L lib name (ascii "KEY") (ascii "4100") [65, 0] ⟨65521, 1, 1⟩ rfl
  ⟨⟨by decide +kernel, by decide +kernel⟩, by decide +kernel⟩ ⟨⟨by decide +kernel, by decide +kernel⟩, by decide +kernel⟩ (by decide +kernel) (by decide +kernel)
  (by decide +kernel) (by decide +kernel) (fun _ r => if r = ascii "data/rsa" then some (ascii "4100") else some (ascii "KEY")) (by decide +kernel) (by decide +kernel)

end Eni.Props
