import Verif.Lemmas.LexItem
import Verif.Lemmas.LayNum
import Verif.Lemmas.LexFail
import Verif.Lemmas.LayLit
import Verif.Lemmas.LayBase
import Verif.Lemmas.LexDq
import Verif.Lemmas.ScriptCheck
import Verif.Props.Violations
import Verif.Spec.LexPanics
/-!
# Scripts that abort for a number, a point at the end, or an escape or an element in a string, whatever else is in them (C07)
-/
namespace Pico
open T

private theorem onum_unwrap {t : Tz} {ds r : Text} (h : At t (ds ++ r)) (hne : ds ≠ [])
    (hd : ∀ c ∈ ds, notDigit c = false) (hr : ∀ c, r.head? = some c → notDigit c = true ∧ c ≠ '.')
    (hv : (if startsWith ds c!"0" && ds.length > 1 then fromStrRadix i64Max 8 (ds.drop 1)
      else fromStrRadix i64Max 10 ds) = none) :
    onumDnumLnum t = .panic .unwrap := by
  have hb := byteLen_ascii (digits_ascii hd)
  unfold onumDnumLnum
  rw [bind_ok (input_at h)]
  have hpos : (position notDigit (ds ++ r)).getD (byteLen (ds ++ r)) = ds.length := by
    apply position_getD _ _ _ hd (fun c hc => (hr c hc).1)
    rintro rfl
    simp [hb]
  rw [if_neg (by simp [hne]), hpos]
  refine (bind_ok inputPos_at).trans ?_
  refine (bind_ok (advanceChars_at h rfl)).trans ?_
  refine (bind_ok (input_at (At.adv h))).trans ?_
  have hdot : startsWith r c!"." = false := by
    cases r with
    | nil => rfl
    | cons c r => simp [startsWith, (hr c rfl).2]
  rw [hdot]
  simp only [Bool.not_false, if_true]
  refine (bind_ok inputPos_at).trans ?_
  have hz : (ds.length != 0) = true := by
    cases ds with
    | nil => exact absurd rfl hne
    | cons => rfl
  simp only [hz, if_true, hb]
  by_cases hc : (startsWith ds c!"0" && decide (ds.length > 1)) = true
  · rw [if_pos hc] at hv
    rw [if_pos hc, hv]
    rfl
  · rw [if_neg hc] at hv
    rw [if_neg hc, hv]
    rfl

private theorem no_value {ds : Text} (hne : ds ≠ []) (hd : ∀ c ∈ ds, c.isDigit = true)
    (hv : ∀ v, IntLit ds v → 2 ^ 63 ≤ v) :
    (if startsWith ds c!"0" && ds.length > 1 then fromStrRadix i64Max 8 (ds.drop 1)
      else fromStrRadix i64Max 10 ds) = none := by
  by_cases hc : (startsWith ds c!"0" && decide (ds.length > 1)) = true
  · rw [if_pos hc]
    rw [Bool.and_eq_true] at hc
    cases ds with
    | nil => exact absurd rfl hne
    | cons x ds =>
      have hx : x = '0' := by simpa [startsWith] using hc.1
      subst hx
      cases hf : fromStrRadix i64Max 8 (('0' :: ds).drop 1) with
      | none => rfl
      | some v =>
        obtain ⟨h1, h2, h3, h4⟩ := fromStrRadix_inv hf
        have := hv v (h3 ▸ IntLit.oct ds h1 fun c hc => octDigit_of (hd c (by simp [hc])) (h2 c hc).2)
        unfold i64Max at h4
        omega
  · rw [if_neg hc]
    cases hf : fromStrRadix i64Max 10 ds with
    | none => rfl
    | some v =>
      obtain ⟨h1, h2, h3, h4⟩ := fromStrRadix_inv hf
      have := hv v (h3 ▸ IntLit.dec ds h1 hd (by
        intro h0
        cases ds with
        | nil => cases h0
        | cons x ds =>
          cases h0
          cases ds with
          | nil => rfl
          | cons y ds => exact absurd (by simp [startsWith]) hc))
      unfold i64Max at h4
      omega

private theorem prefixed_unwrap {t : Tz} {pre : Text} {radix : Nat} {isDigit : Char → Bool} {ds r : Text}
    (h : At t (pre ++ ds ++ r)) (hpre : byteLen pre = 2) (hne : ds ≠ []) (hd : ∀ c ∈ ds, isDigit c = true)
    (hr : ∀ c, r.head? = some c → isDigit c = false) (hv : fromStrRadix i64Max radix ds = none) :
    prefixedNum pre radix isDigit t = .panic .unwrap := by
  unfold prefixedNum
  rw [bind_ok (input_at h)]
  rw [List.append_assoc] at h
  have hlen : ¬ (byteLen (pre ++ ds ++ r) < 3) := by
    have := byteLen_pos hne
    rw [byteLen_append, byteLen_append]
    omega
  have hsw : startsWith (pre ++ ds ++ r) pre = true := by rw [List.append_assoc]; exact startsWith_append _ _
  rw [if_neg (by rw [hsw]; simpa using hlen)]
  refine (bind_ok (advanceBytes_at' h hpre.symm)).trans ?_
  have h2 : At (t.adv 2) (ds ++ r) := by rw [← hpre]; exact At.adv h
  refine (bind_ok (input_at h2)).trans ?_
  have hpos : (position (fun c => !isDigit c) (ds ++ r)).getD (ds ++ r).length = ds.length := by
    apply position_getD
    · intro c hc; simp [hd c hc]
    · intro c hc; simp [hr c hc]
    · rintro rfl; simp
  have hp0 : (position (fun c => !isDigit c) (ds ++ r) == some 0) = false := by
    cases ds with
    | nil => exact absurd rfl hne
    | cons c ds =>
      have := hd c (by simp)
      simp only [List.cons_append, position, this, Bool.not_true, Bool.false_eq_true, if_false]
      cases position (fun c => !isDigit c) (ds ++ r) <;> simp
  rw [hp0, hpos]
  simp only [Bool.false_eq_true, if_false]
  refine (bind_ok inputPos_at).trans ?_
  refine (bind_ok (subT_le (by show 2 ≤ t.st.srcPos + 2; omega))).trans ?_
  refine (bind_ok (advanceChars_at h2 rfl)).trans ?_
  simp only [hv]
  rfl

private theorem too_large {radix : Nat} {ds : Text} (hv : 2 ^ 63 ≤ numberValue radix ds) : fromStrRadix i64Max radix ds = none := by
  cases hf : fromStrRadix i64Max radix ds with
  | none => rfl
  | some v =>
    obtain ⟨-, -, h3, h4⟩ := fromStrRadix_inv hf
    unfold i64Max at h4
    omega

/-- The part of the tokenizer that reads numbers. -/
private theorem scan_big {t : Tz} {w r : Text} (hat : At t (w ++ r)) (hw : Numeral w r) (hv : ∀ v, IntLit w v → 2 ^ 63 ≤ v) (q : T TokSpan) :
    (bnum <||> hnum <||> onumDnumLnum <||> q) t = .panic .unwrap := by
  cases hw with
  | dec hne hd hb =>
    have hr' : ∀ c, r.head? = some c → notDigit c = true ∧ c ≠ '.' := by
      intro c hc
      obtain ⟨r', rfl⟩ : ∃ r', r = c :: r' := by
        cases r with
        | nil => cases hc
        | cons x r => cases hc; exact ⟨_, rfl⟩
      refine ⟨?_, (hb c r' rfl).2⟩
      cases hn : notDigit c with
      | true => rfl
      | false =>
        have := (hb c r' rfl).1
        rw [notDigit_false hn] at this
        cases this
    have hon := onum_unwrap hat hne (fun c hc => notDigit_of_isDigit (hd c hc)) hr' (no_value hne hd hv)
    have hpre : ∀ x : Char, x.isDigit = false → startsWith (w ++ r) ['0', x] = false := by
      intro x hx
      cases w with
      | nil => exact absurd rfl hne
      | cons a w =>
        cases w with
        | nil =>
          have h1 := hv _ (IntLit.dec [a] hne hd (by rintro h; cases h; rfl))
          have h2 := isDigit_value (hd a (by simp))
          have h3 : numberValue 10 [a] = digitValue a := by simp [numberValue]
          omega
        | cons b w =>
          have hb := hd b (by simp)
          have : b ≠ x := by rintro rfl; rw [hb] at hx; cases hx
          simp [startsWith, this]
    rw [orElse_none (show bnum _ = _ from prefixedNum_none _ _ _ hat (hpre 'b' (by decide))),
      orElse_none (show hnum _ = _ from prefixedNum_none _ _ _ hat (hpre 'x' (by decide)))]
    unfold T.orElse
    rw [hon]
  | hex hne hd hb =>
    rename_i ds
    have hon : hnum t = .panic .unwrap := prefixed_unwrap (pre := c!"0x") hat rfl hne (fun c hc => (isHexDigit_iff c).2 (hd c hc))
      (by
        intro c hc
        cases r with
        | nil => cases hc
        | cons x r =>
          cases hc
          cases hx : isHexDigit c with
          | false => rfl
          | true => exact absurd ((isHexDigit_iff c).1 hx) (hb c r rfl)) (too_large (hv _ (.hex ds hne hd)))
    rw [orElse_none (show bnum _ = _ from prefixedNum_none _ _ _ hat rfl)]
    unfold T.orElse
    rw [hon]
  | bin hne hd hb =>
    rename_i ds
    have hon : bnum t = .panic .unwrap := prefixed_unwrap (pre := c!"0b") hat rfl hne (fun c hc => by simpa using hd c hc)
      (by
        intro c hc
        cases r with
        | nil => cases hc
        | cons x r =>
          cases hc
          have := hb c r rfl
          simpa using this) (too_large (hv _ (.bin ds hne hd)))
    unfold T.orElse
    rw [hon]

private theorem Numeral.head {w r : Text} (h : Numeral w r) : ∃ c w', w = c :: w' ∧ c.isDigit = true := by
  cases h with
  | dec hne hd _ =>
    cases w with
    | nil => exact absurd rfl hne
    | cons c w => exact ⟨c, w, rfl, hd c (by simp)⟩
  | hex => exact ⟨_, _, rfl, rfl⟩
  | bin => exact ⟨_, _, rfl, rfl⟩

private theorem token_big (n : Nat) {t : Tz} {g w r : Text} {d : Nat} (hg : Blank g) (hm : Mode t false d) (hat : At t (g ++ (w ++ r)))
    (hw : Numeral w r) (hv : ∀ v, IntLit w v → 2 ^ 63 ≤ v) : nextToken (n + 1) t = .panic .unwrap := by
  have hmv := Moved.ws hat hg.all
  have hbig := scan_big hmv.at' hw hv
  obtain ⟨c, w', rfl, hc⟩ := hw.head
  obtain ⟨g1, g2, g3⟩ := digit_start (ds := [c]) (r := w' ++ r) (by simp) (by simpa using hc)
  have hs : inScriptingToken (nextToken n) n t = .panic .unwrap := by
    rw [scripting_start _ _ hat hg.all g3 (by simp), orElse_none (hereNowDoc_none _ _ hmv.at' g1 g2)]
    exact hbig _
  unfold nextToken
  rw [hm.state]
  simp only [Bool.false_eq_true, if_false]
  rw [hs]

/-- A script aborts if the tokenizer does behind the first lexemes. -/
private theorem script_panics (is : List Item) (c : Char) (r : Text) (d : Nat) (p : Panic) (hc : isBlank c = false)
    (hl : isLabelChar c = false ∨ inRange '0' '9' c = true) (ha : c ≠ '-') (h : Apart false is (c :: r)) (hb : braces 0 is = some d)
    (ht : ∀ (n : Nat) (t : Tz) (g : Text), Blank g → Mode t false d → At t (g ++ c :: r) → nextToken (n + 1) t = .panic p) :
    Ends (c!"<?php" ++ (render is ++ c :: r)) (.panic p) := by
  have big : lexAll ((toks false is).length + 5) ((toks false is).length + 5) (Tz.new (c!"<?php" ++ (render is ++ c :: r))) [] =
      .panic p := by
    obtain ⟨sp, t1, h1, h2, h3, hp⟩ := open_tag (render is ++ c :: r) ((toks false is).length + 4)
    have hi := inv_new (c!"<?php" ++ (render is ++ c :: r))
    obtain ⟨out, t2, g1, g2, g3, g4, g5⟩ := run_items is (c :: r) ((toks false is).length + 2) d t1 false 0 (.of_at h2)
      ⟨hi.next h1, hp, .inl h3⟩ h hb [⟨.k .OpenTag, sp⟩]
    have hlen : out.length = (toks false is).length := by rw [← g1, List.length_map]
    rw [lexAll_step (ts := ⟨.k .OpenTag, sp⟩) h1 nofun]
    have := g2 4
    rw [show 4 + out.length = (toks false is).length + 4 by omega] at this
    refine this.trans ?_
    have hun : nextToken ((toks false is).length + 2 + 3) t2 = .panic p := by
      obtain ⟨g0, hg0, hat⟩ := Ahead.lex hc g3
      obtain ⟨t3, m, e, hm, -, hat3, -, hp3⟩ := g4.enter ((toks false is).length + 2)
      rw [e]
      cases hpr : endsProp false is with
      | false =>
        rw [hpr] at hm
        exact ht _ _ _ hg0 hm (hat3 _ hat)
      | true =>
        rw [hpr] at hm
        obtain ⟨t4, ht4, hat4, hm4, -, hp4⟩ := lexProp_other hg0 (hat3 _ hat) hm (by simpa using hc)
          (by intro x hx; cases hx; exact hl) (by simp [startsWithCi, List.take, ha, lowerAscii, inRange]) (m + 1)
        rw [ht4]
        exact ht _ _ [] nofun hm4 hat4
    show lexAll _ (3 + 1) _ _ = _
    unfold lexAll
    rw [hun]
  refine ⟨(toks false is).length + 5, ?_, nofun⟩
  unfold parseStrN
  rw [big]

/-- **C07** fails for every script with a number that is no integer literal below 2^63, which means that it is too large or that it begins
with 0 and has an 8 or a 9 in it, wherever it is and whatever follows: `parse_str` aborts, and reports nothing. (What `C07_lexer_causes` says
about numbers is sufficient, too.) -/
theorem C07_fails_numbers (is : List Item) (w rest : Text) (d : Nat) (hw : Numeral w rest) (hv : ∀ v, IntLit w v → 2 ^ 63 ≤ v)
    (h : Apart false is (w ++ rest)) (hb : braces 0 is = some d) :
    Ends (c!"<?php" ++ render is ++ w ++ rest) (.panic .unwrap) := by
  rw [show c!"<?php" ++ render is ++ w ++ rest = c!"<?php" ++ (render is ++ (w ++ rest)) by simp]
  have ht : ∀ (n : Nat) (t : Tz) (g : Text), Blank g → Mode t false d → At t (g ++ (w ++ rest)) → nextToken (n + 1) t = .panic .unwrap :=
    fun n t g hg hm hat => token_big n hg hm hat hw hv
  obtain ⟨c, w', rfl, hcd⟩ := hw.head
  obtain ⟨-, -, hblank⟩ := digit_start (ds := [c]) (r := w' ++ rest) (by simp) (by simpa using hcd)
  exact script_panics is c (w' ++ rest) d _ (by simpa using hblank) (.inr (by rw [← isDigit_iff]; exact hcd))
    (by rintro rfl; cases hcd) h hb ht

private theorem token_dot (n : Nat) {t : Tz} {g : Text} {d : Nat} (hg : Blank g) (hm : Mode t false d) (hat : At t (g ++ c!".")) :
    nextToken (n + 1) t = .panic .unwrap := by
  have hmv := Moved.ws hat hg.all
  have h : At (t.ws g) (c!"." ++ []) := hmv.at'
  have hon : onumDnumLnum (t.ws g) = .panic .unwrap := by
    have h1 : At (t.ws g) ([] ++ c!".") := h
    have h0 : notDigit '.' = true := by decide
    unfold onumDnumLnum
    rw [bind_ok (input_at h)]
    simp only [List.append_nil, List.isEmpty_cons, Bool.false_eq_true, if_false, position, h0, if_true, Option.getD_some]
    refine (bind_ok inputPos_at).trans ?_
    refine (bind_ok (advanceChars_at h1 rfl)).trans ?_
    show (input >>= _) (t.ws g) = _
    rw [bind_ok (input_at h)]
    simp only [List.append_nil, startsWith, beq_self_eq_true, Bool.and_true, Bool.not_true, Bool.false_eq_true, if_false]
    refine (bind_ok (advanceChars_at h rfl)).trans ?_
    refine (bind_ok (input_at (At.adv h))).trans ?_
    rw [if_neg (by decide)]
    refine (bind_ok inputPos_at).trans ?_
    have h2 : At ((t.ws g).adv (byteLen c!".")) ([] ++ []) := At.adv h
    refine (bind_ok (advanceChars_at h2 rfl)).trans ?_
    rfl
  have hs : inScriptingToken (nextToken n) n t = .panic .unwrap := by
    rw [scripting_start _ _ hat hg.all rfl (by simp), orElse_none (hereNowDoc_none _ _ h rfl rfl),
      orElse_none (show bnum _ = _ from prefixedNum_none _ _ _ h rfl), orElse_none (show hnum _ = _ from prefixedNum_none _ _ _ h rfl)]
    unfold T.orElse
    rw [hon]
  unfold nextToken
  rw [hm.state]
  simp only [Bool.false_eq_true, if_false]
  rw [hs]

/-- **C07** fails for every script that ends with a point, whatever is before it. -/
theorem C07_fails_point (is : List Item) (d : Nat) (h : Apart false is c!".") (hb : braces 0 is = some d) :
    Ends (c!"<?php" ++ render is ++ c!".") (.panic .unwrap) := by
  rw [show c!"<?php" ++ render is ++ c!"." = c!"<?php" ++ (render is ++ c!".") by simp]
  exact script_panics is '.' [] d _ (by decide) (.inl (by decide)) (by decide) h hb fun n t g hg hm hat => token_dot n hg hm hat

/-- `<?php $a .` meets the hypotheses. -/
example : let is : List Item := [.gap c!" ", .lex (.var c!"a"), .gap c!" "]
    Apart false is c!"." ∧ braces 0 is = some 0 ∧ c!"<?php" ++ render is ++ c!"." = c!"<?php $a ." :=
  ⟨apartB_ok rfl, rfl, rfl⟩

private theorem stop_position {s r : Text} {c : Char} (hs : ∀ c ∈ s, isDqStop c = false) (hc : isDqStop c = true) :
    position isDqStop (s ++ c :: r) = some s.length := by
  rw [position_append _ _ _ hs, position_hit _ _ _ hc]
  simp

/-- A string in double quotes with something in it at which the tokenizer aborts. -/
private theorem token_string (n : Nat) {t : Tz} {g s r : Text} {c : Char} {p : Panic} {d : Nat} (hs : ∀ c ∈ s, c ∉ c!"\\\"$\n{")
    (hc : (c = '\\' ∧ ∀ bs t', At t' (c :: r) → strEscape bs false t' = .panic p) ∨
      (c = '$' ∧ ∀ bs ps t', At t' (c :: r) → strVariable (nextToken n) n bs ps t' = .panic p))
    (hg : Blank g) (hm : Mode t false d) (hat : At t (g ++ '"' :: (s ++ c :: r))) :
    nextToken (n + 1) t = .panic p := by
  have hmv := Moved.ws hat hg.all
  have hat' := hmv.at'
  have hq : At (t.ws g) (c!"\"" ++ (s ++ c :: r)) := hmv.at'
  have hstop : ∀ c ∈ s, isDqStop c = false := by
    intro c hc
    have := hs c hc
    simp only [List.mem_cons, List.not_mem_nil, or_false, not_or] at this
    simp [isDqStop, this]
  have hcs : isDqStop c = true := by rcases hc with ⟨rfl, -⟩ | ⟨rfl, -⟩ <;> rfl
  have h2 : At ((t.ws g).adv 1) (s ++ c :: r) := At.adv hq
  have hloop : ∀ (bak : TState) (f : Nat), dqLoop (nextToken n) n bak (f + 1) [] [] ((t.ws g).adv 1) = .panic p := by
    intro bak f
    have hadv : dqAdvance ((t.ws g).adv 1) = .ok s (((t.ws g).adv 1).adv (byteLen s)) := by
      unfold dqAdvance
      rw [bind_ok (input_at h2), stop_position hstop hcs]
      exact advanceChars_at h2 rfl
    have h3 : At (((t.ws g).adv 1).adv (byteLen s)) (c :: r) := At.adv h2
    unfold dqLoop
    rw [bind_ok hadv]
    dsimp only
    refine (bind_ok (input_at h3)).trans ?_
    rcases hc with ⟨rfl, hc⟩ | ⟨rfl, hc⟩
    · exact bind_panic (hc _ _ h3)
    · exact bind_panic (hc _ _ _ h3)
  have hdq : matchDqString (nextToken n) n (t.ws g) = .panic p := by
    unfold matchDqString
    rw [bind_ok (input_at hq)]
    rw [if_neg (by
      have h1 : byteLen c!"\"" = 1 := rfl
      have h4 : 0 < byteLen (s ++ c :: r) := byteLen_pos (by simp)
      rw [byteLen_append]
      omega)]
    refine (bind_ok (m := getSt) (t' := t.ws g) rfl).trans ?_
    dsimp only
    rw [if_neg (by simp [startsWith]), if_pos (by simp [startsWith])]
    refine (bind_ok (advanceBytes_at' hq rfl)).trans ?_
    exact bind_panic (hloop _ _)
  have hs' : inScriptingToken (nextToken n) n t = .panic p := by
    rw [scripting_start _ _ hat hg.all rfl (by simp), orElse_none (hereNowDoc_none _ _ hat' rfl rfl),
      orElse_none (show bnum _ = _ from prefixedNum_none _ _ _ hat' rfl), orElse_none (show hnum _ = _ from prefixedNum_none _ _ _ hat' rfl),
      orElse_none (onum_none hat' (by simp) (by intro c hc; cases hc; decide) rfl)]
    unfold T.orElse
    rw [hdq]
  unfold nextToken
  rw [hm.state]
  simp only [Bool.false_eq_true, if_false]
  rw [hs']

private theorem escape_panics {t : Tz} {r : Text} {e : Char} (he : e = 'e' ∨ e = 'u') (h : At t ('\\' :: e :: r)) (bs : List Byte) :
    strEscape bs false t = .panic .unimplemented := by
  unfold strEscape
  rw [bind_ok (input_at h)]
  rcases he with rfl | rfl <;> rfl

private theorem element_panics {next : T TokSpan} {bf : Nat} {t : Tz} {w r : Text} (hw : IsLabel w) (h : At t ('$' :: (w ++ '[' :: r)))
    (bs : List Byte) (ps : List TokSpan) : strVariable next bf bs ps t = .panic .unimplemented := by
  have h1 : At t (c!"$" ++ (w ++ '[' :: r)) := h
  have h2 : At (t.adv 1) (w ++ '[' :: r) := At.adv h1
  have h3 : At ((t.adv 1).adv (byteLen w)) ('[' :: r) := At.adv h2
  have hbr : startsWith (w ++ '[' :: r) c!"{" = false := by
    cases w with
    | nil => exact absurd rfl hw.1
    | cons c w =>
      have := hw.lab c (by simp)
      have hc : c ≠ '{' := by rintro rfl; revert this; decide
      simp [startsWith, hc]
  have hlab := label_some h2 hw.1 hw.lab (fun c hc => by rw [← isDigit_iff]; exact hw.2.1 c hc) (by intro c hc; cases hc; decide)
  unfold strVariable
  refine (bind_ok (advanceBytes_at' h1 rfl)).trans ?_
  refine (bind_ok (input_at h2)).trans ?_
  rw [hbr]
  simp only [Bool.false_eq_true, if_false]
  refine (bind_ok hlab).trans ?_
  dsimp only
  refine (bind_ok (input_at h3)).trans ?_
  refine bind_panic ?_
  rw [if_pos (by simp [startsWith])]
  rfl

/-- **C07** fails for every script with an escape `\e` or `\u` as the first special thing in a string in double quotes, wherever the string is
and whatever follows. -/
theorem C07_fails_escape (is : List Item) (s rest : Text) (e : Char) (d : Nat) (he : e = 'e' ∨ e = 'u') (hs : ∀ c ∈ s, c ∉ c!"\\\"$\n{")
    (h : Apart false is ('"' :: (s ++ '\\' :: e :: rest))) (hb : braces 0 is = some d) :
    Ends (c!"<?php" ++ (render is ++ '"' :: (s ++ '\\' :: e :: rest))) (.panic .unimplemented) :=
  script_panics is '"' _ d _ (by decide) (.inl (by decide)) (by decide) h hb fun n t g hg hm hat =>
    token_string n hs (.inl ⟨rfl, fun bs t' h' => escape_panics he h' bs⟩) hg hm hat

/-- `<?php echo "red: \e[31m";` meets the hypotheses. -/
example : let is : List Item := [.gap c!" ", .lex (.word c!"echo"), .gap c!" "]
    (∀ c ∈ c!"red: ", c ∉ c!"\\\"$\n{") ∧ Apart false is ('"' :: (c!"red: " ++ '\\' :: 'e' :: c!"[31m\";")) ∧ braces 0 is = some 0 ∧
      c!"<?php" ++ (render is ++ '"' :: (c!"red: " ++ '\\' :: 'e' :: c!"[31m\";")) = c!"<?php echo \"red: \\e[31m\";" :=
  ⟨by decide, apartB_ok rfl, rfl, rfl⟩

private theorem hex_panics {t : Tz} {w r : Text} {x : Char} (hx : x = 'x' ∨ x = 'X') (ha : ∀ c ∈ w, c.isAlphanum = true)
    (hw : w.length = 2 ∨ w.length = 1 ∧ ∀ c, r.head? = some c → c.isAlphanum = false)
    (hbad : r = [] ∨ ∃ c ∈ w, ¬ (c.isDigit = true ∨ c ∈ c!"abcdefABCDEF")) (h : At t ('\\' :: x :: (w ++ r))) (bs : List Byte) :
    strEscape bs false t = .panic .unwrap := by
  have hend : hexEnd ('\\' :: x :: (w ++ r)) = w.length + 1 := by
    unfold hexEnd
    rcases hw with hd | ⟨hd, hn⟩
    · obtain ⟨a, b, rfl⟩ : ∃ a b, w = [a, b] := by
        match w, hd with
        | [a, b], _ => exact ⟨a, b, rfl⟩
      have h1 := ha a (by simp)
      have h2 := ha b (by simp)
      rw [← isAlnum_iff] at h1 h2
      simp [h1, h2]
    · obtain ⟨a, rfl⟩ := List.length_eq_one_iff.1 hd
      have h1 := ha a (by simp)
      rw [← isAlnum_iff] at h1
      cases r with
      | nil => simp [h1]
      | cons c r =>
        have := hn c rfl
        rw [← isAlnum_iff] at this
        simp [h1, this]
  have htk : (('\\' :: x :: (w ++ r)).take (w.length + 1 + 1)).drop 2 = w := by
    simp [List.take_succ_cons]
  have hval : (w ++ r).length + 1 + 1 ≤ w.length + 1 + 1 ∨ fromStrRadix 255 16 w = none := by
    rcases hbad with rfl | ⟨c, hc, hbad⟩
    · exact .inl (by simp)
    · refine .inr ?_
      cases hf : fromStrRadix 255 16 w with
      | none => rfl
      | some v =>
        obtain ⟨-, h2, -, -⟩ := fromStrRadix_inv hf
        exact absurd (hexDigit_of (h2 c hc)) hbad
  unfold strEscape
  rw [bind_ok (input_at h)]
  rcases hx with rfl | rfl <;>
  · simp only [List.getElem?_cons_succ, List.getElem?_cons_zero, hend, htk, List.length_cons]
    rcases hval with hval | hval
    · simp only [hval]
      rfl
    · rw [hval]
      by_cases hl : (w ++ r).length + 1 + 1 ≤ w.length + 1 + 1 <;> simp only [hl] <;> rfl

/-- **C07** fails for every script with an escape `\x` as the first special thing in a string in double quotes, if the one or two letters or
digits behind it are not all hexadecimal digits or end the source. -/
theorem C07_fails_hexadecimal (is : List Item) (s w rest : Text) (x : Char) (d : Nat) (hx : x = 'x' ∨ x = 'X')
    (ha : ∀ c ∈ w, c.isAlphanum = true) (hw : w.length = 2 ∨ w.length = 1 ∧ ∀ c, rest.head? = some c → c.isAlphanum = false)
    (hbad : rest = [] ∨ ∃ c ∈ w, ¬ (c.isDigit = true ∨ c ∈ c!"abcdefABCDEF")) (hs : ∀ c ∈ s, c ∉ c!"\\\"$\n{")
    (h : Apart false is ('"' :: (s ++ '\\' :: x :: (w ++ rest)))) (hb : braces 0 is = some d) :
    Ends (c!"<?php" ++ (render is ++ '"' :: (s ++ '\\' :: x :: (w ++ rest)))) (.panic .unwrap) :=
  script_panics is '"' _ d _ (by decide) (.inl (by decide)) (by decide) h hb fun n t g hg hm hat =>
    token_string n hs (.inl ⟨rfl, fun bs t' h' => hex_panics hx ha hw hbad h' bs⟩) hg hm hat

/-- `<?php echo "C:\xampp";` meets the hypotheses. -/
example : let is : List Item := [.gap c!" ", .lex (.word c!"echo"), .gap c!" "]
    (∀ c ∈ c!"am", c.isAlphanum = true) ∧ (∃ c ∈ c!"am", ¬ (c.isDigit = true ∨ c ∈ c!"abcdefABCDEF")) ∧ (∀ c ∈ c!"C:", c ∉ c!"\\\"$\n{") ∧
      Apart false is ('"' :: (c!"C:" ++ '\\' :: 'x' :: (c!"am" ++ c!"pp\";"))) ∧ braces 0 is = some 0 ∧
      c!"<?php" ++ (render is ++ '"' :: (c!"C:" ++ '\\' :: 'x' :: (c!"am" ++ c!"pp\";"))) = c!"<?php echo \"C:\\xampp\";" :=
  ⟨by decide, ⟨'m', by decide, by decide⟩, by decide, apartB_ok rfl, rfl, rfl⟩

/-- **C07** fails for every script with an element of an array (`$name[`) as the first special thing in a string in double quotes, wherever the
string is and whatever follows. -/
theorem C07_fails_element (is : List Item) (s w rest : Text) (d : Nat) (hw : IsLabel w) (hs : ∀ c ∈ s, c ∉ c!"\\\"$\n{")
    (h : Apart false is ('"' :: (s ++ '$' :: (w ++ '[' :: rest)))) (hb : braces 0 is = some d) :
    Ends (c!"<?php" ++ (render is ++ '"' :: (s ++ '$' :: (w ++ '[' :: rest)))) (.panic .unimplemented) :=
  script_panics is '"' _ d _ (by decide) (.inl (by decide)) (by decide) h hb fun n t g hg hm hat =>
    token_string n hs (.inr ⟨rfl, fun bs ps t' h' => element_panics hw h' bs ps⟩) hg hm hat

/-- `<?php echo "Hello $names[0]!";` meets the hypotheses. -/
example : let is : List Item := [.gap c!" ", .lex (.word c!"echo"), .gap c!" "]
    IsLabel c!"names" ∧ (∀ c ∈ c!"Hello ", c ∉ c!"\\\"$\n{") ∧
      Apart false is ('"' :: (c!"Hello " ++ '$' :: (c!"names" ++ '[' :: c!"0]!\";"))) ∧ braces 0 is = some 0 ∧
      c!"<?php" ++ (render is ++ '"' :: (c!"Hello " ++ '$' :: (c!"names" ++ '[' :: c!"0]!\";"))) = c!"<?php echo \"Hello $names[0]!\";" :=
  ⟨⟨by decide, by decide, by decide⟩, by decide, apartB_ok rfl, rfl, rfl⟩

/-- `9223372036854775808`, which is 2^63, and `09` meet the hypothesis about the number. -/
example : (∀ v, IntLit c!"9223372036854775808" v → 2 ^ 63 ≤ v) ∧ (∀ v, IntLit c!"09" v → 2 ^ 63 ≤ v) := by
  constructor
  · intro v h
    generalize hw : c!"9223372036854775808" = w at h
    cases h with
    | dec => subst hw; decide
    | oct ds => cases hw
    | hex ds => cases hw
    | bin ds => cases hw
  · intro v h
    generalize hw : c!"09" = w at h
    cases h with
    | dec _ _ _ hz => subst hw; exact absurd (hz rfl) (by decide)
    | oct ds _ hd => cases hw; exact absurd (hd '9' (by simp)) (by decide)
    | hex ds => cases hw
    | bin ds => cases hw

/-- So does the hexadecimal number `0x8000000000000000`. -/
example : Numeral c!"0x8000000000000000" c!";" ∧ Numeral c!"09" c!"); }" ∧ ∀ v, IntLit c!"0x8000000000000000" v → 2 ^ 63 ≤ v := by
  refine ⟨.hex (ds := c!"8000000000000000") (by decide) (by decide) (by intro c r h; cases h; decide),
    .dec (by decide) (by decide) (by intro c r h; cases h; decide), ?_⟩
  intro v h
  generalize hw : c!"0x8000000000000000" = w at h
  cases h with
  | dec _ _ _ hz => subst hw; exact absurd (hz rfl) (by decide)
  | oct ds _ hd => cases hw; exact absurd (hd 'x' (by simp)) (by decide)
  | hex ds => cases hw; decide
  | bin ds => cases hw

/-- `<?php { f(09); }` meets the other hypotheses. -/
example : let is : List Item := [.gap c!" ", .lex (.sym c!"{" .CurlyBracesOpen), .gap c!" ", .lex (.word c!"f"),
      .lex (.sym c!"(" .ParenthesesOpen)]
    Apart false is (c!"09" ++ c!"); }") ∧ braces 0 is = some 1 ∧ c!"<?php" ++ render is ++ c!"09" ++ c!"); }" = c!"<?php { f(09); }" :=
  ⟨apartB_ok rfl, rfl, rfl⟩

end Pico
