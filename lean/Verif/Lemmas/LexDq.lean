import Verif.Spec.Source
import Verif.Lemmas.LexStr
import Verif.Lemmas.LexSpec
import Verif.Lemmas.TokenizerMono
/-!
# Strings between double quotes
-/
namespace Pico
open T

variable {t : Tz}

theorem encodeChar_length (c : Char) : (encodeChar c).length = c.utf8Size := by
  unfold encodeChar Char.utf8Size
  have e : c.val.toNat = c.toNat := rfl
  have e1 : ∀ p, (UInt32.ofNatLT 127 p).toNat = 127 := fun _ => rfl
  have e2 : ∀ p, (UInt32.ofNatLT 2047 p).toNat = 2047 := fun _ => rfl
  have e3 : ∀ p, (UInt32.ofNatLT 65535 p).toNat = 65535 := fun _ => rfl
  simp only [UInt32.le_iff_toNat_le, e, e1, e2, e3]
  by_cases h1 : c.toNat < 0x80
  · rw [if_pos h1, if_pos (by omega)]; rfl
  rw [if_neg h1, if_neg (show ¬ c.toNat ≤ 127 by omega)]
  by_cases h2 : c.toNat < 0x800
  · rw [if_pos h2, if_pos (by omega)]; rfl
  rw [if_neg h2, if_neg (show ¬ c.toNat ≤ 2047 by omega)]
  by_cases h3 : c.toNat < 0x10000
  · rw [if_pos h3, if_pos (by omega)]; rfl
  rw [if_neg h3, if_neg (by omega)]; rfl

theorem encode_length (s : Text) : (encode s).length = byteLen s := by
  induction s with
  | nil => rfl
  | cons c s ih => rw [encode_cons, List.length_append, encodeChar_length, ih]; rfl

theorem position_some_of_mem {p : Char → Bool} {r : Text} (h : ∃ c ∈ r, p c = true) : ∃ k, position p r = some k ∧ k ≤ r.length := by
  induction r with
  | nil => obtain ⟨c, hc, _⟩ := h; cases hc
  | cons d r ih =>
    unfold position
    by_cases hd : p d = true
    · exact ⟨0, by rw [if_pos hd], Nat.zero_le _⟩
    · rw [if_neg hd]
      obtain ⟨c, hc, hp⟩ := h
      rcases List.mem_cons.1 hc with rfl | hc
      · exact absurd hp hd
      · obtain ⟨k, hk, hl⟩ := ih ⟨c, hc, hp⟩
        exact ⟨k + 1, by rw [hk]; rfl, by simp only [List.length_cons]; omega⟩

section
variable (next : T TokSpan) (bf : Nat) (bak : TState)

theorem dqLoop_plain (f : Nat) (bytes : List Byte) (parts : List TokSpan) {c : Char} {r : Text} (h : At t (c :: r))
    (hc : isDqStop c = false) (hr : '"' ∈ r) :
    dqLoop next bf bak (f + 1) bytes parts t = dqLoop next bf bak (f + 1) (bytes ++ encodeChar c) parts (t.adv c.utf8Size) := by
  have h1 : At t ([c] ++ r) := h
  have h2 : At (t.adv c.utf8Size) r := At.adv h1
  obtain ⟨k, hk, hle⟩ := position_some_of_mem (p := isDqStop) ⟨_, hr, by decide⟩
  have hpos : position isDqStop (c :: r) = some (k + 1) := by
    unfold position
    rw [hc, hk]
    rfl
  have h3 : At t ((c :: r.take k) ++ r.drop k) := by simpa using h
  have h4 : At (t.adv c.utf8Size) (r.take k ++ r.drop k) := by simpa using h2
  have hd : ∀ {t : Tz} {a b : Text} (n : Nat), At t (a ++ b) → position isDqStop (a ++ b) = some n → n = a.length →
      dqAdvance t = .ok a (t.adv (byteLen a)) := by
    intro t a b n h hp hn
    unfold dqAdvance
    rw [bind_ok (input_at h), hp]
    exact advanceChars_at h hn
  conv => lhs; unfold dqLoop
  conv => rhs; unfold dqLoop
  rw [bind_ok (hd (k + 1) h3 (by simpa using hpos) (by simp [hle])), bind_ok (hd k h4 (by simpa using hk) (by simp [hle]))]
  rw [encode_cons, ← List.append_assoc, Tz.adv_adv]
  rfl

/-- What the loop does at a stop character. -/
theorem dqLoop_stop {f : Nat} {bytes : List Byte} {parts : List TokSpan} {c : Char} {r : Text} (h : At t (c :: r))
    (hc : isDqStop c = true) :
    dqLoop next bf bak (f + 1) bytes parts t =
      (match (c :: r).head? with
      | some '\n' => do
        let _ ← advanceBytes 1
        modSt TState.nextLine
        dqLoop next bf bak f (bytes ++ [10]) parts
      | some '\\' => do
        let bytes ← strEscape bytes false
        dqLoop next bf bak f bytes parts
      | some '"' => do
        let _ ← advanceBytes 1
        return (bytes, parts)
      | some '$' => do
        let (bytes, parts) ← strVariable next bf bytes parts
        dqLoop next bf bak f bytes parts
      | some '{' => do
        let (bytes, parts) ← strBlock next bf bytes parts true
        dqLoop next bf bak f bytes parts
      | _ => do
        let errPos ← inputPos
        setSt bak
        fail (.unterminated "double-quoted string literal" (mkSpan bak.srcPos errPos)) : T (List Byte × List TokSpan)) t := by
  have hd : dqAdvance t = .ok [] (t.adv 0) := by
    unfold dqAdvance
    rw [bind_ok (input_at h)]
    have : position isDqStop (c :: r) = some 0 := by unfold position; rw [if_pos hc]
    rw [this]
    exact advanceChars_at (a := []) h rfl
  have he : bytes ++ encode [] = bytes := by simp [encode]
  conv => lhs; unfold dqLoop
  rw [bind_ok hd]
  dsimp only
  rw [he]
  exact bind_ok (input_at h)

end

/-- All tokens stand behind the two bytes of a short open tag. -/
def Behind (ps : List TokSpan) : Prop := ∀ y ∈ ps, 2 ≤ y.span.start

theorem Behind.append {ps qs : List TokSpan} (h : Behind ps) (h' : Behind qs) : Behind (ps ++ qs) := by
  intro y hy
  rcases List.mem_append.1 hy with hy | hy
  · exact h y hy
  · exact h' y hy

theorem Behind.cons {x : TokSpan} {qs : List TokSpan} (h : 2 ≤ x.span.start) (h' : Behind qs) : Behind (x :: qs) := by
  intro y hy
  rcases List.mem_cons.1 hy with rfl | hy
  · exact h
  · exact h' y hy

theorem Behind.nil : Behind [] := nofun

theorem flushBytes_text {s : Text} {parts : List TokSpan} (hB : Behind parts) {stop : Nat} (h : byteLen s + 2 ≤ stop) :
    ∃ ps, flushBytes (encode s) parts stop t = .ok ps t ∧ ps.map TokSpan.tok = parts.map TokSpan.tok ++ textTok s ∧ Behind ps := by
  unfold flushBytes textTok
  cases s with
  | nil => exact ⟨parts, rfl, by simp, hB⟩
  | cons c s =>
    have hne : (encode (c :: s)).isEmpty = false := by
      cases he : encode (c :: s) with
      | nil =>
        have := encode_length (c :: s)
        rw [he] at this
        have hp := Char.utf8Size_pos c
        simp only [byteLen, List.length_nil] at this
        omega
      | cons _ _ => rfl
    rw [hne]
    refine ⟨parts ++ [⟨.encaps (c :: s), mkSpan (stop - byteLen (c :: s)) stop⟩], ?_, by simp,
      hB.append (.cons (by show 2 ≤ stop - byteLen (c :: s); omega) .nil)⟩
    rw [if_neg (by simp), encode_length, bind_ok (subT_le (by omega))]
    simp only [bytesToken, decode_encode]
    rfl

/-! ### Escape sequences -/

theorem escDone_at {c : Char} {r : Text} (h : At t ('\\' :: c :: r)) (bs : List Byte) : escDone bs t = .ok bs (t.adv (byteLen ['\\', c])) := by
  have h1 : At t (['\\', c] ++ r) := h
  exact bind_ok (advanceChars_at h1 rfl)

theorem strEscape_esc {c v : Char} {r : Text} (h : At t ('\\' :: c :: r)) (hc : (c, v) ∈ dqEscapes) (bytes : List Byte) :
    strEscape bytes false t = .ok (bytes ++ encode [v]) (t.adv (byteLen ['\\', c])) := by
  unfold strEscape
  rw [bind_ok (input_at h)]
  simp only [List.getElem?_cons_succ, List.getElem?_cons_zero]
  simp only [dqEscapes, List.mem_cons, List.not_mem_nil, or_false, Prod.mk.injEq] at hc
  rcases hc with ⟨rfl, rfl⟩ | ⟨rfl, rfl⟩ | ⟨rfl, rfl⟩ | ⟨rfl, rfl⟩ | ⟨rfl, rfl⟩ | ⟨rfl, rfl⟩ | ⟨rfl, rfl⟩ | ⟨rfl, rfl⟩ <;>
    exact (escDone_at h _)

theorem strEscape_raw {c : Char} {r : Text} (h : At t ('\\' :: c :: r)) (hc : c ∉ c!"nrtfve\"\\$xXu") (bytes : List Byte) :
    strEscape bytes false t = .ok (bytes ++ encode ['\\', c]) (t.adv (byteLen ['\\', c])) := by
  unfold strEscape
  rw [bind_ok (input_at h)]
  simp only [List.getElem?_cons_succ, List.getElem?_cons_zero]
  have hx : c ≠ 'n' ∧ c ≠ 'r' ∧ c ≠ 't' ∧ c ≠ 'f' ∧ c ≠ 'v' ∧ c ≠ 'e' ∧ c ≠ '"' ∧ c ≠ '\\' ∧ c ≠ '$' ∧ c ≠ 'x' ∧ c ≠ 'X' ∧ c ≠ 'u' := by
    simpa using hc
  obtain ⟨h1, h2, h3, h4, h5, h6, h7, h8, h9, h10, h11, h12⟩ := hx
  simp only [h1, h2, h3, h4, h5, h6, h7, h8, h9, h10, h11, h12, beq_iff_eq, Bool.and_eq_true, Bool.or_eq_true, if_false, and_false, false_and, or_false, Bool.false_eq_true]
  rw [escDone_at h]
  simp [encode, encodeChar]

theorem hexDigit_class {c : Char} (h : c.isDigit = true ∨ c ∈ c!"abcdefABCDEF") :
    isAlnum c = true ∧ (c.isDigit || c.isLower || c.isUpper) = true ∧ digitValue c < 16 := by
  rcases h with h | h
  · rw [isDigit_iff] at h
    refine ⟨by simp [isAlnum, h], by rw [isDigit_iff, h]; rfl, ?_⟩
    unfold digitValue
    rw [isDigit_iff, h, if_pos rfl]
    simp only [inRange, Bool.and_eq_true, decide_eq_true_eq] at h
    have e : ('9' : Char).toNat = 57 := rfl
    have e' : ('0' : Char).toNat = 48 := rfl
    have := h.2
    have h9 : c.toNat ≤ 57 := this
    omega
  · simp only [List.mem_cons, List.not_mem_nil, or_false] at h
    rcases h with rfl | rfl | rfl | rfl | rfl | rfl | rfl | rfl | rfl | rfl | rfl | rfl <;> decide

theorem isAlnum_iff (c : Char) : isAlnum c = c.isAlphanum := by
  have ha : 'a'.toNat = 97 := rfl
  have hz : 'z'.toNat = 122 := rfl
  have hA : 'A'.toNat = 65 := rfl
  have hZ : 'Z'.toNat = 90 := rfl
  have hl : c.isLower = inRange 'a' 'z' c := by
    have hv : ∀ k : UInt32, (k ≤ c.val) = (k.toNat ≤ c.toNat) := by
      intro k; rw [UInt32.le_iff_toNat_le]; rfl
    have hv' : ∀ k : UInt32, (c.val ≤ k) = (c.toNat ≤ k.toNat) := by
      intro k; rw [UInt32.le_iff_toNat_le]; rfl
    rw [Bool.eq_iff_iff]
    simp only [Char.isLower, inRange, ha, hz, Bool.and_eq_true, decide_eq_true_eq, ge_iff_le, hv, hv']
    simp
  have hu : c.isUpper = inRange 'A' 'Z' c := by
    have hv : ∀ k : UInt32, (k ≤ c.val) = (k.toNat ≤ c.toNat) := by
      intro k; rw [UInt32.le_iff_toNat_le]; rfl
    have hv' : ∀ k : UInt32, (c.val ≤ k) = (c.toNat ≤ k.toNat) := by
      intro k; rw [UInt32.le_iff_toNat_le]; rfl
    rw [Bool.eq_iff_iff]
    simp only [Char.isUpper, inRange, hA, hZ, Bool.and_eq_true, decide_eq_true_eq, ge_iff_le, hv, hv']
    simp
  have hd : c.isDigit = inRange '0' '9' c := isDigit_iff c
  rw [isAlnum, Char.isAlphanum, Char.isAlpha, hl, hu, hd]
  cases inRange 'a' 'z' c <;> cases inRange 'A' 'Z' c <;> rfl

theorem encode_ofNat {v : Nat} (h : v < 128) : encode [Char.ofNat v] = [v] := by
  have : (Char.ofNat v).toNat = v := toNat_ofNat_valid (by unfold Nat.isValidChar; omega)
  simp [encode, encodeChar, this, h]

theorem strEscape_hex {ds rest : Text} (h : At t ('\\' :: 'x' :: (ds ++ rest)))
    (hd : ds.length = 2 ∨ ds.length = 1 ∧ ∀ c, rest.head? = some c → c.isAlphanum = false)
    (hx : ∀ c ∈ ds, c.isDigit = true ∨ c ∈ c!"abcdefABCDEF") (hv : numberValue 16 ds < 128) (hr : rest ≠ []) (bytes : List Byte) :
    strEscape bytes false t = .ok (bytes ++ encode [Char.ofNat (numberValue 16 ds)]) (t.adv (byteLen ('\\' :: 'x' :: ds))) := by
  have hval : fromStrRadix 255 16 ds = some (numberValue 16 ds) := by
    unfold fromStrRadix
    cases ds with
    | nil => rcases hd with hd | hd <;> simp at hd
    | cons c ds =>
      simp only [digitsVal_value (fun c hc => (hexDigit_class (hx c hc)).2)]
      unfold numberValue at hv ⊢
      rw [if_pos (by omega)]
  have hend : hexEnd ('\\' :: 'x' :: (ds ++ rest)) = ds.length + 1 := by
    unfold hexEnd
    rcases hd with hd | ⟨hd, hn⟩
    · obtain ⟨a, b, rfl⟩ : ∃ a b, ds = [a, b] := by
        match ds, hd with
        | [a, b], _ => exact ⟨a, b, rfl⟩
      simp [(hexDigit_class (hx a (by simp))).1, (hexDigit_class (hx b (by simp))).1]
    · obtain ⟨a, rfl⟩ := List.length_eq_one_iff.1 hd
      cases rest with
      | nil => exact absurd rfl hr
      | cons c rest =>
        have := hn c rfl
        rw [← isAlnum_iff] at this
        simp [(hexDigit_class (hx a (by simp))).1, this]
  have hlen : 0 < rest.length := List.length_pos_iff.2 hr
  have h1 : At t (('\\' :: 'x' :: ds) ++ rest) := h
  unfold strEscape
  rw [bind_ok (input_at h)]
  simp only [List.getElem?_cons_succ, List.getElem?_cons_zero, hend]
  have htk : (('\\' :: 'x' :: (ds ++ rest)).take (ds.length + 1 + 1)).drop 2 = ds := by
    simp [List.take_succ_cons]
  rw [htk, hval]
  have hl : ¬ ('\\' :: 'x' :: (ds ++ rest)).length ≤ ds.length + 1 + 1 := by
    simp only [List.length_cons, List.length_append]
    omega
  simp only [hl]
  rw [encode_ofNat hv]
  exact bind_ok (advanceChars_at h1 (by simp; omega))

/-! ### Variables -/

theorem Word.label {w r : Text} (hw : Word w) (h : At t (w ++ r)) (hr : endsIdentifier r = true) :
    Pico.label t = .ok (some (w, mkSpan t.st.srcPos (t.st.srcPos + w.length))) (t.adv (byteLen w)) :=
  label_some h hw.ne hw.lab hw.dig (endsIdentifier_head hr)

theorem noIdentifier_label {r : Text} (h : At t r) (hr : noIdentifier r) : Pico.label t = .ok none t := by
  refine label_none h fun c hc => ?_
  rcases hr with hr | ⟨d, q, rfl, hd⟩
  · exact .inl (endsIdentifier_head hr c hc)
  · cases hc
    rw [isDigit_iff] at hd
    exact .inr hd

section
variable (next : T TokSpan) (bf : Nat)

theorem strVariable_dollar {rest : Text} (h : At t ('$' :: rest)) (hr : noIdentifier rest) (hb : startsWith rest c!"{" = false)
    (bytes : List Byte) (parts : List TokSpan) :
    strVariable next bf bytes parts t = .ok (bytes ++ [36], parts) (t.adv 1) := by
  have h1 : At t (c!"$" ++ rest) := h
  have h2 : At (t.adv 1) rest := At.adv h1
  unfold strVariable
  refine (bind_ok (advanceBytes_at' h1 rfl)).trans ?_
  refine (bind_ok (input_at h2)).trans ?_
  rw [hb]
  simp only [Bool.false_eq_true, if_false]
  refine (bind_ok (noIdentifier_label h2 hr)).trans ?_
  rfl

theorem strVariable_var {n rest : Text} (h : At t ('$' :: (n ++ rest))) (hn : Word n) (he : endsIdentifier rest = true)
    (hb : startsWith rest c!"[" = false) (ha : ∀ r, rest = c!"->" ++ r → noIdentifier r)
    {s : Text} (hs : byteLen s + 2 ≤ t.st.srcPos) {parts : List TokSpan} (hB : Behind parts) :
    ∃ ps, strVariable next bf (encode s) parts t = .ok ([], ps) (t.adv (byteLen ('$' :: n))) ∧
      ps.map TokSpan.tok = parts.map TokSpan.tok ++ textTok s ++ [.variable n] ∧ Behind ps := by
  have h1 : At t (c!"$" ++ (n ++ rest)) := h
  have h2 : At (t.adv 1) (n ++ rest) := At.adv h1
  have h3 : At ((t.adv 1).adv (byteLen n)) rest := At.adv h2
  have hadv : (t.adv 1).adv (byteLen n) = t.adv (byteLen ('$' :: n)) := by
    rw [Tz.adv_adv]; rfl
  obtain ⟨ps, hf, hps, hB'⟩ := flushBytes_text (t := (t.adv 1).adv (byteLen n)) hB hs
  have hbr : startsWith (n ++ rest) c!"{" = false := by
    cases n with
    | nil => exact absurd rfl hn.ne
    | cons c n =>
      have := hn.lab c (by simp)
      have hc : c ≠ '{' := by rintro rfl; revert this; decide
      simp [startsWith, hc]
  have hsub : subT (t.adv 1).st.srcPos 1 ((t.adv 1).adv (byteLen n)) = .ok t.st.srcPos ((t.adv 1).adv (byteLen n)) :=
    subT_le (by show 1 ≤ t.st.srcPos + 1; omega)
  refine ⟨ps ++ [⟨.variable n, mkSpan t.st.srcPos ((t.adv 1).st.srcPos + n.length)⟩], ?_, by simp [hps],
    hB'.append (.cons (by show 2 ≤ t.st.srcPos; omega) .nil)⟩
  rw [← hadv]
  unfold strVariable
  refine (bind_ok (advanceBytes_at' h1 rfl)).trans ?_
  refine (bind_ok (input_at h2)).trans ?_
  rw [hbr]
  simp only [Bool.false_eq_true, if_false]
  refine (bind_ok (hn.label h2 he)).trans ?_
  dsimp only
  refine (bind_ok (input_at h3)).trans ?_
  simp only [hb, Bool.false_eq_true, if_false]
  have hfin : ∀ tmp : List TokSpan, tmp = [] → (do
      let start ← subT (mkSpan (t.adv 1).st.srcPos ((t.adv 1).st.srcPos + n.length)).start 1
      let parts ← flushBytes (encode s) parts start
      return (([], parts ++ [⟨.variable n, mkSpan start (mkSpan (t.adv 1).st.srcPos ((t.adv 1).st.srcPos + n.length)).stop⟩] ++ tmp) :
        List Byte × List TokSpan) : T _) ((t.adv 1).adv (byteLen n)) =
      .ok ([], ps ++ [⟨.variable n, mkSpan t.st.srcPos ((t.adv 1).st.srcPos + n.length)⟩]) ((t.adv 1).adv (byteLen n)) := by
    rintro _ rfl
    refine (bind_ok hsub).trans ?_
    refine (bind_ok hf).trans ?_
    simp only [List.append_nil]
    rfl
  cases hx : startsWith rest c!"->" with
  | false =>
    simp only [Bool.false_eq_true, if_false]
    exact hfin [] rfl
  | true =>
    obtain ⟨r, rfl⟩ := startsWith_split hx
    have h4 : At (((t.adv 1).adv (byteLen n)).adv 2) r := At.adv h3
    simp only [if_true]
    have hl := noIdentifier_label h4 (ha r rfl)
    refine Eq.trans ?_ (hfin [] rfl)
    refine bind_ok ?_
    refine (bind_ok inputPos_at).trans ?_
    refine (bind_ok (advanceBytes_at' h3 rfl)).trans ?_
    refine (bind_ok hl).trans ?_
    rfl

theorem strVariable_prop {n p rest : Text} (h : At t ('$' :: n ++ c!"->" ++ p ++ rest)) (hn : Word n) (hp : Word p)
    (he : endsIdentifier rest = true) {s : Text} (hs : byteLen s + 2 ≤ t.st.srcPos) {parts : List TokSpan} (hB : Behind parts) :
    ∃ ps, strVariable next bf (encode s) parts t = .ok ([], ps) (t.adv (byteLen ('$' :: n ++ c!"->" ++ p))) ∧
      ps.map TokSpan.tok = parts.map TokSpan.tok ++ textTok s ++ [.variable n, .k .ObjectOp, .string p] ∧ Behind ps := by
  have h1 : At t (c!"$" ++ (n ++ (c!"->" ++ (p ++ rest)))) := by simpa using h
  have h2 : At (t.adv 1) (n ++ (c!"->" ++ (p ++ rest))) := At.adv h1
  have h3 : At ((t.adv 1).adv (byteLen n)) (c!"->" ++ (p ++ rest)) := At.adv h2
  have h4 : At (((t.adv 1).adv (byteLen n)).adv 2) (p ++ rest) := At.adv h3
  have hadv : (((t.adv 1).adv (byteLen n)).adv 2).adv (byteLen p) = t.adv (byteLen ('$' :: n ++ c!"->" ++ p)) := by
    rw [Tz.adv_adv, Tz.adv_adv, Tz.adv_adv, byteLen_append, byteLen_append]
    congr 1
    show 1 + (byteLen n + (2 + byteLen p)) = (1 + byteLen n) + 2 + byteLen p
    omega
  obtain ⟨ps, hf, hps, hB'⟩ := flushBytes_text (t := (((t.adv 1).adv (byteLen n)).adv 2).adv (byteLen p)) hB hs
  have hbr : startsWith (n ++ (c!"->" ++ (p ++ rest))) c!"{" = false := by
    cases n with
    | nil => exact absurd rfl hn.ne
    | cons c n =>
      have := hn.lab c (by simp)
      have hc : c ≠ '{' := by rintro rfl; revert this; decide
      simp [startsWith, hc]
  have hsub : ∀ u : Tz, subT (t.adv 1).st.srcPos 1 u = .ok t.st.srcPos u :=
    fun u => subT_le (by show 1 ≤ t.st.srcPos + 1; omega)
  let bk := ((t.adv 1).adv (byteLen n)).st.srcPos
  let q := (((t.adv 1).adv (byteLen n)).adv 2).st.srcPos
  refine ⟨ps ++ [⟨.variable n, mkSpan t.st.srcPos ((t.adv 1).st.srcPos + n.length)⟩] ++
    [⟨.k .ObjectOp, mkSpan bk (bk + 1)⟩, ⟨.string p, mkSpan q (q + p.length)⟩], ?_, by simp [hps],
    (hB'.append (.cons (by show 2 ≤ t.st.srcPos; omega) .nil)).append
      (.cons (by show 2 ≤ t.st.srcPos + 1 + byteLen n; omega) (.cons (by show 2 ≤ t.st.srcPos + 1 + byteLen n + 2; omega) .nil))⟩
  rw [← hadv]
  unfold strVariable
  refine (bind_ok (advanceBytes_at' h1 rfl)).trans ?_
  refine (bind_ok (input_at h2)).trans ?_
  rw [hbr]
  simp only [Bool.false_eq_true, if_false]
  refine (bind_ok (hn.label h2 rfl)).trans ?_
  dsimp only
  refine (bind_ok (input_at h3)).trans ?_
  simp only [List.cons_append, startsWith, List.nil_append]
  refine (bind_ok (a := [⟨.k .ObjectOp, mkSpan bk (bk + 1)⟩, ⟨.string p, mkSpan q (q + p.length)⟩])
    (t' := (((t.adv 1).adv (byteLen n)).adv 2).adv (byteLen p)) ?_).trans ?_
  · refine (bind_ok inputPos_at).trans ?_
    refine (bind_ok (advanceBytes_at' h3 rfl)).trans ?_
    refine (bind_ok (hp.label h4 he)).trans ?_
    rfl
  · refine (bind_ok (hsub _)).trans ?_
    refine (bind_ok hf).trans ?_
    rfl

theorem strBlock_brace {rest : Text} (h : At t ('{' :: rest)) (hr : startsWith rest c!"$" = false) (bytes : List Byte)
    (parts : List TokSpan) : strBlock next bf bytes parts true t = .ok (bytes ++ [123], parts) (t.adv 1) := by
  have h1 : At t (c!"{" ++ rest) := h
  have h2 : At (t.adv 1) rest := At.adv h1
  unfold strBlock
  refine (bind_ok (advanceBytes_at' h1 rfl)).trans ?_
  refine (bind_ok (input_at h2)).trans ?_
  rw [hr]
  rfl

end

/-! ### The whole string -/

theorem startsWith_of_closed {z r p : Text} (hp : '"' ∉ p) (h : startsWith (z ++ '"' :: r) p = true) : p <+: z ++ c!"\"" := by
  induction p generalizing z with
  | nil => exact List.nil_prefix
  | cons a p ih =>
    have ha : a ≠ '"' := fun h => hp (by simp [h])
    cases z with
    | nil =>
      simp only [List.nil_append, startsWith, Bool.and_eq_true, beq_iff_eq] at h
      exact absurd h.1.symm ha
    | cons c z =>
      simp only [List.cons_append, startsWith, Bool.and_eq_true, beq_iff_eq] at h
      obtain ⟨rfl, h⟩ := h
      obtain ⟨q, hq⟩ := ih (fun h => hp (by simp [h])) h
      exact ⟨q, by rw [List.cons_append, hq]; rfl⟩

theorem startsWith_closed {z r p : Text} (hp : '"' ∉ p) (h : ¬ p <+: z ++ c!"\"") : startsWith (z ++ '"' :: r) p = false := by
  cases hx : startsWith (z ++ '"' :: r) p with
  | false => rfl
  | true => exact absurd (startsWith_of_closed hp hx) h

theorem noIdentifier_closed {z r : Text} (h : noIdentifier (z ++ c!"\"")) : noIdentifier (z ++ '"' :: r) := by
  cases z with
  | nil => exact .inl rfl
  | cons c z =>
    rcases h with h | ⟨d, q, h1, h2⟩
    · exact .inl h
    · cases h1; exact .inr ⟨c, _, rfl, h2⟩

theorem endsIdentifier_closed {z r : Text} (h : endsIdentifier (z ++ c!"\"") = true) : endsIdentifier (z ++ '"' :: r) = true := by
  cases z with
  | nil => rfl
  | cons c z => exact h

theorem dqToks_text (s : Text) {it : DqItem} (its : List DqItem) (h : ∀ n, it ≠ .var n) (h' : ∀ n p, it ≠ .prop n p) :
    dqToks s (it :: its) = dqToks (s ++ it.val) its := by
  cases it with
  | var n => exact absurd rfl (h n)
  | prop n p => exact absurd rfl (h' n p)
  | _ => rfl

theorem dqLoop_items (next : T TokSpan) (bf : Nat) (bak : TState) (its : List DqItem) : ∀ (f : Nat) (s : Text) (parts : List TokSpan)
    (t : Tz) (r : Text), DqOk its → its.length ≤ f → At t (dqSrc its ++ '"' :: r) → byteLen s + 2 ≤ t.st.srcPos →
    Behind parts →
    ∃ s' ps t', dqLoop next bf bak (f + 1) (encode s) parts t = .ok (encode s', ps) t' ∧ Moved t t' r ∧
      ps.map TokSpan.tok ++ textTok s' = parts.map TokSpan.tok ++ dqToks s its ∧ 3 ≤ t'.st.srcPos ∧ Behind ps := by
  induction its with
  | nil =>
    intro f s parts t r _ _ h h2 hB
    have h1 : At t (c!"\"" ++ r) := h
    refine ⟨s, parts, t.adv 1, ?_, Moved.adv' h1 rfl, rfl, (by show 3 ≤ t.st.srcPos + 1; omega), hB⟩
    rw [dqLoop_stop next bf bak (c := '"') h (by decide)]
    simp only [List.head?_cons]
    exact (bind_ok (advanceBytes_at' h1 rfl))
  | cons it its ih =>
    intro f s parts t r hok hf h hs hB
    obtain ⟨h1, h2⟩ := hok
    obtain ⟨f, rfl⟩ : ∃ g, f = g + 1 := ⟨f - 1, by simp at hf; omega⟩
    simp only [List.length_cons] at hf
    have hat : At t (it.src ++ (dqSrc its ++ '"' :: r)) := by simpa [dqSrc] using h
    have hm := Moved.adv hat
    have hmem : '"' ∈ dqSrc its ++ '"' :: r := by simp
    -- one step over literal text
    have key : ∀ {g : Nat}, its.length ≤ g → (∀ n, it ≠ .var n) → (∀ n p, it ≠ .prop n p) → byteLen it.val ≤ byteLen it.src →
        ∀ u, Moved t u (dqSrc its ++ '"' :: r) → u.st.srcPos = t.st.srcPos + byteLen it.src →
        dqLoop next bf bak (f + 1 + 1) (encode s) parts t = dqLoop next bf bak (g + 1) (encode s ++ encode it.val) parts u →
        ∃ s' ps t', dqLoop next bf bak (f + 1 + 1) (encode s) parts t = .ok (encode s', ps) t' ∧ Moved t t' r ∧
          ps.map TokSpan.tok ++ textTok s' = parts.map TokSpan.tok ++ dqToks s (it :: its) ∧ 3 ≤ t'.st.srcPos ∧ Behind ps := by
      intro g hg hv hp hl u hu hpos heq
      obtain ⟨s', ps, t', e1, e2, e3, e4⟩ := ih g (s ++ it.val) parts u r h2 hg hu.at' (by rw [byteLen_append, hpos]; omega) hB
      refine ⟨s', ps, t', ?_, hu.trans e2, by rw [dqToks_text s its hv hp]; exact e3, e4⟩
      rw [heq, ← encode_append]
      exact e1
    cases it with
    | plain c =>
      obtain ⟨c1, c2, c3, c4⟩ := h1
      by_cases hn : c = '\n'
      · subst hn
        refine key (g := f) (by omega) nofun nofun (Nat.le_refl _) { (t.adv 1) with st := (t.adv 1).st.nextLine }
          ⟨hm.at', rfl, rfl, rfl, rfl⟩ rfl ?_
        rw [dqLoop_stop next bf bak (c := '\n') hat (by decide)]
        simp only [List.head?_cons]
        have hat' : At t (c!"\n" ++ (dqSrc its ++ '"' :: r)) := hat
        refine (bind_ok (advanceBytes_at' hat' rfl)).trans ?_
        tstep (()) { (t.adv 1) with st := (t.adv 1).st.nextLine }
        rfl
      · refine key (g := f + 1) (by omega) nofun nofun (Nat.le_refl _) _ hm rfl ?_
        have := dqLoop_plain next bf bak (f + 1) (encode s) parts hat (by simp [isDqStop, c1, c2, c3, c4, hn]) hmem
        rw [this]
        simp [DqItem.src, DqItem.val, byteLen, encode]
    | esc c v =>
      have hv : byteLen [v] ≤ byteLen ['\\', c] := by
        have : ∀ p ∈ dqEscapes, byteLen [p.2] = 1 := by decide
        have := this _ h1
        simp only [byteLen] at this ⊢
        have := Char.utf8Size_pos '\\'
        omega
      refine key (g := f) (by omega) nofun nofun hv _ hm rfl ?_
      rw [dqLoop_stop next bf bak (c := '\\') hat (by decide)]
      simp only [List.head?_cons]
      exact bind_ok (strEscape_esc hat h1 _)
    | raw c =>
      refine key (g := f) (by omega) nofun nofun (Nat.le_refl _) _ hm rfl ?_
      rw [dqLoop_stop next bf bak (c := '\\') hat (by decide)]
      simp only [List.head?_cons]
      exact bind_ok (strEscape_raw hat h1 _)
    | hex ds =>
      obtain ⟨d1, d2, d3⟩ := h1
      refine key (g := f) (by omega) nofun nofun ?_ _ hm rfl ?_
      · show byteLen [Char.ofNat (numberValue 16 ds)] ≤ _
        rw [← encode_length, encode_ofNat d3]
        show 1 ≤ byteLen ('\\' :: 'x' :: ds)
        have := Char.utf8Size_pos '\\'
        simp only [byteLen]
        omega
      · rw [dqLoop_stop next bf bak (c := '\\') hat (by decide)]
        simp only [List.head?_cons]
        refine bind_ok (strEscape_hex hat (d1.imp id fun d => ⟨d.1, ?_⟩) d2 d3 (by simp) _)
        intro c hc
        cases hz : dqSrc its with
        | nil => rw [hz] at hc; cases hc; rfl
        | cons x z => rw [hz] at hc d; exact d.2 c hc
    | dollar =>
      obtain ⟨d1, d2⟩ := h1
      refine key (g := f) (by omega) nofun nofun (Nat.le_refl _) _ hm rfl ?_
      rw [dqLoop_stop next bf bak (c := '$') hat (by decide)]
      simp only [List.head?_cons]
      exact bind_ok (strVariable_dollar next bf hat (noIdentifier_closed d1) (startsWith_closed (by decide) d2) _ _)
    | brace =>
      refine key (g := f) (by omega) nofun nofun (Nat.le_refl _) _ hm rfl ?_
      rw [dqLoop_stop next bf bak (c := '{') hat (by decide)]
      simp only [List.head?_cons]
      exact bind_ok (strBlock_brace next bf hat (startsWith_closed (by decide) h1) _ _)
    | var n =>
      obtain ⟨d1, d2, d3, d4⟩ := h1
      obtain ⟨ps, e1, e2, e3⟩ := strVariable_var next bf hat (Word.of_identifier d1) (endsIdentifier_closed d2)
        (startsWith_closed (by decide) d3) (by
          intro q hq
          have hpre := startsWith_of_closed (z := dqSrc its) (r := r) (p := c!"->") (by decide) (by rw [hq]; exact startsWith_append _ _)
          obtain ⟨q', hq'⟩ := hpre
          have := d4 q' hq'.symm
          have hqq : q = q' ++ r := by
            have e : dqSrc its ++ '"' :: r = (dqSrc its ++ c!"\"") ++ r := by simp
            rw [e, ← hq', List.append_assoc] at hq
            exact (List.append_cancel_left hq).symm
          rw [hqq]
          cases hc : q' with
          | nil =>
            exfalso
            rw [hc, List.append_nil] at hq'
            have := congrArg List.getLast? hq'
            simp at this
          | cons x q' =>
            rw [hc] at this
            rcases this with h | ⟨y, z, h3, h4⟩
            · exact .inl h
            · cases h3; exact .inr ⟨x, _, rfl, h4⟩) hs hB
      obtain ⟨s', ps', t', g1, g2, g3, g4⟩ := ih f [] ps _ r h2 (by omega) hm.at'
        (by show 0 + 2 ≤ t.st.srcPos + _; omega) e3
      refine ⟨s', ps', t', ?_, hm.trans g2, ?_, g4⟩
      · rw [dqLoop_stop next bf bak (c := '$') hat (by decide)]
        simp only [List.head?_cons]
        refine (bind_ok e1).trans ?_
        exact g1
      · rw [g3, e2]
        simp [dqToks]
    | prop n p =>
      obtain ⟨d1, d2, d3⟩ := h1
      obtain ⟨ps, e1, e2, e3⟩ := strVariable_prop next bf hat (Word.of_identifier d1) (Word.of_identifier d2) (endsIdentifier_closed d3) hs hB
      obtain ⟨s', ps', t', g1, g2, g3, g4⟩ := ih f [] ps _ r h2 (by omega) hm.at'
        (by show 0 + 2 ≤ t.st.srcPos + _; omega) e3
      refine ⟨s', ps', t', ?_, hm.trans g2, ?_, g4⟩
      · have hat2 : At t ('$' :: (n ++ c!"->" ++ p ++ (dqSrc its ++ '"' :: r))) := by simpa [DqItem.src] using hat
        rw [dqLoop_stop next bf bak (c := '$') hat2 (by decide)]
        simp only [List.head?_cons]
        refine (bind_ok e1).trans ?_
        exact g1
      · rw [g3, e2]
        simp [dqToks]

theorem dqItems_length (its : List DqItem) : its.length ≤ (dqSrc its).length := by
  induction its with
  | nil => exact Nat.le_refl _
  | cons x its ih =>
    have e : dqSrc (x :: its) = x.src ++ dqSrc its := rfl
    have : 1 ≤ x.src.length := by cases x <;> simp [DqItem.src]
    rw [e, List.length_append, List.length_cons]
    omega

/-- Reading a string between double quotes: its first token, and the others in the queue. -/
theorem dqString_some (next : T TokSpan) (bf : Nat) {its : List DqItem} (hok : DqOk its) {r : Text} (h : At t ('"' :: (dqSrc its ++ '"' :: r)))
    (hq : t.queue = []) (h2 : 2 ≤ t.st.srcPos) :
    ∃ sp q t', matchDqString next bf t = .ok ⟨.k .DoubleQuote, sp⟩ { t' with queue := q, st := t'.st.push .emitQueue } ∧ Moved t t' r ∧
      q.map TokSpan.tok = dqToks [] its ++ [.k .DoubleQuote] ∧ Behind q := by
  have h1 : At t (c!"\"" ++ (dqSrc its ++ '"' :: r)) := h
  have hm := Moved.adv h1
  obtain ⟨s', ps, t', e1, e2, e3, e4, e5⟩ := dqLoop_items next bf t.st its (('"' :: (dqSrc its ++ '"' :: r)).length) [] [] _ r hok
    (by have := dqItems_length its; simp only [List.length_cons, List.length_append]; omega) hm.at'
    (by show 0 + 2 ≤ t.st.srcPos + _; omega) .nil
  have hq' : t'.queue = [] := (hm.trans e2).queue.trans hq
  let st : TokSpan := ⟨.k .DoubleQuote, mkSpan t.st.srcPos (t.st.srcPos + 1)⟩
  let en : TokSpan := ⟨.k .DoubleQuote, mkSpan (t'.st.srcPos - 1) t'.st.srcPos⟩
  let rest : List TokSpan := if (encode s').isEmpty then [en] else [⟨bytesToken (encode s'), mkSpan st.span.start en.span.stop⟩, en]
  refine ⟨mkSpan t.st.srcPos (t.st.srcPos + 1), ps ++ rest ++ t'.queue, t', ?_, hm.trans e2, ?_, ?_⟩
  · unfold matchDqString
    rw [bind_ok (input_at h)]
    rw [if_neg (by
      simp only [byteLen, byteLen_append]
      have h1 : ('"' : Char).utf8Size = 1 := by decide
      omega)]
    tstep (t.st) t
    rw [if_neg (by simp [startsWith]), if_pos (by simp [startsWith])]
    refine (bind_ok (advanceBytes_at' h1 rfl)).trans ?_
    refine (bind_ok e1).trans ?_
    refine (bind_ok inputPos_at).trans ?_
    refine (bind_ok (subT_le (Nat.le_trans (by decide) e4))).trans ?_
    rfl
  · have hr : rest.map TokSpan.tok = textTok s' ++ [.k .DoubleQuote] := by
      cases s' with
      | nil => rfl
      | cons c s =>
        have hne : (encode (c :: s)).isEmpty = false := by
          cases he : encode (c :: s) with
          | nil =>
            have := encode_length (c :: s)
            rw [he] at this
            have hp := Char.utf8Size_pos c
            simp only [byteLen, List.length_nil] at this
            omega
          | cons _ _ => rfl
        simp only [rest, hne, bytesToken, decode_encode]
        rfl
    rw [hq', List.append_nil, List.map_append, hr, ← List.append_assoc, e3]
    rfl
  · rw [hq', List.append_nil]
    refine e5.append ?_
    have hen : 2 ≤ en.span.start := by show 2 ≤ t'.st.srcPos - 1; omega
    show Behind (if _ then _ else _)
    split
    · exact .cons hen .nil
    · exact .cons h2 (.cons hen .nil)

end Pico
