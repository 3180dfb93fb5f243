import Verif.Lemmas.LayLit
import Verif.Lemmas.LexItem
/-! # Words, symbols and casts -/
namespace Pico
open T

section
variable {t : Tz}

theorem lo_none_ok (hlab : label t = .ok none t) {x : TokSpan} {t' : Tz} (ho : inScriptingOtherToken t = .ok x t') :
    labelOrOther t.st.srcPos t = .ok x { t' with st := { t'.st with srcPos := x.span.stop } } := by
  unfold labelOrOther
  rw [bind_ok (setPos_here rfl), bind_ok hlab, bind_ok (setPos_here rfl)]
  simp only [ho]

theorem lo_none_err (hlab : label t = .ok none t) {e : SyntaxErr} {t' : Tz} (ho : inScriptingOtherToken t = .err e t') :
    ∃ e' t'', labelOrOther t.st.srcPos t = .err e' t'' ∧ e' ≠ .none := by
  unfold labelOrOther
  rw [bind_ok (setPos_here rfl), bind_ok hlab, bind_ok (setPos_here rfl)]
  simp only [ho]
  cases e with
  | none => exact ⟨_, _, rfl, nofun⟩
  | unterminated _ sp => exact ⟨_, _, rfl, nofun⟩
  | unknownCharacter sp => exact ⟨_, _, rfl, nofun⟩

theorem lo_none_panic (hlab : label t = .ok none t) {p : Panic} (ho : inScriptingOtherToken t = .panic p) :
    labelOrOther t.st.srcPos t = .panic p := by
  unfold labelOrOther
  rw [bind_ok (setPos_here rfl), bind_ok hlab, bind_ok (setPos_here rfl)]
  simp only [ho]

theorem StepL.sym {w r : Text} {k : Kw} {x : TokSpan} {t' : Tz} (h : At t (w ++ r)) (hp : Scrap w [.k k] r)
    (hx : x.tok = .k k) (hc : t'.code = t.code) (ha : At t' r) (hq : t'.queue = [])
    (hm : k = .ObjectOp ∧ t'.st.state = .lookingForProperty ∨ k ≠ .ObjectOp ∧ scriptState t'.st.state) (hz : Busy t → Busy t')
    (hk : k = .CurlyBracesOpen ∨ (k = .ObjectOp ∧ t'.st.stack = t.st.state :: t.st.stack) ∨
      (k = .CurlyBracesClose ∧ t.st.stack = t'.st.state :: t'.st.stack) ∨
      (k ≠ .ObjectOp ∧ k ≠ .CurlyBracesClose ∧ t'.st.state = t.st.state ∧ t'.st.stack = t.st.stack)) : StepL t x t' := by
  refine ⟨hc, hz, .inr (.inl ⟨w, [], r, h, ha, ?_, nofun, ?_, .inr ?_⟩)⟩
  · rw [hx, hq]; exact hp
  rotate_left
  · rw [hx]
    have ne : ∀ {a b : Kw}, a ≠ b → Token.k a ≠ Token.k b := fun h h' => h (by cases h'; rfl)
    rcases hk with rfl | ⟨rfl, h⟩ | ⟨rfl, h⟩ | ⟨h1, h2, h⟩
    · exact .inl rfl
    · exact .inr (.inl ⟨rfl, h⟩)
    · exact .inr (.inr (.inl ⟨rfl, h, rfl⟩))
    · exact .inr (.inr (.inr ⟨ne h1, ne h2, h⟩))
  · rcases hm with ⟨rfl, h⟩ | ⟨h1, h⟩
    · exact .inl ⟨hx, hq, h, rfl⟩
    · refine .inr ⟨?_, h⟩
      rw [hx]
      intro h; cases h; exact h1 rfl

theorem busy_push {s : LexState} (h1 : s ≠ .doNothing) (h2 : s ≠ .done) {t' : Tz} (h : Busy t)
    (hs : t'.st.state = s := by rfl) (hk : t'.st.stack = t.st.state :: t.st.stack := by rfl) : Busy t' := by
  intro x hx
  rw [hs, hk] at hx
  rcases List.mem_cons.1 hx with rfl | hx
  · exact ⟨h1, h2⟩
  · exact h x hx

theorem busy_set {s : LexState} (h1 : s ≠ .doNothing) (h2 : s ≠ .done) {t' : Tz} (h : Busy t)
    (hs : t'.st.state = s := by rfl) (hk : t'.st.stack = t.st.stack := by rfl) : Busy t' := by
  intro x hx
  rw [hs, hk] at hx
  rcases List.mem_cons.1 hx with rfl | hx
  · exact ⟨h1, h2⟩
  · exact h x (List.mem_cons_of_mem _ hx)

/-! ### The tables -/

theorem startsWithCi_mono {s i x : Text} (hp : s <+: i) (h : startsWithCi s x = true) : startsWithCi i x = true := by
  obtain ⟨r, rfl⟩ := hp
  obtain ⟨q, hq, _⟩ := startsWithCi_split h
  unfold startsWithCi
  rw [hq]
  simp

theorem find_prefix {es : List Entry} {s i : Text} {e : Entry} (hp : s <+: i) (hf : findEntry es i = some e)
    (hm : startsWithCi s e.text = true) : findEntry es s = some e := by
  induction es with
  | nil => cases hf
  | cons d es ih =>
    unfold findEntry at hf ⊢ ih
    rw [List.find?_cons] at hf ⊢
    cases hd : startsWithCi i d.text with
    | true => rw [hd] at hf; cases hf; rw [hm]
    | false =>
      rw [hd] at hf
      have : startsWithCi s d.text = false := by
        cases h : startsWithCi s d.text with
        | false => rfl
        | true => rw [startsWithCi_mono hp h] at hd; cases hd
      rw [this]
      exact ih hf

theorem find_none_prefix {es : List Entry} {s i : Text} (hp : s <+: i) (hf : findEntry es i = none) : findEntry es s = none := by
  unfold findEntry at *
  rw [List.find?_eq_none] at *
  intro e he h
  exact hf e he (startsWithCi_mono hp h)

/-- The symbols and the close tag. -/
def symTexts : List Text := c!"?>" :: symbols.map Prod.fst

theorem symTexts_found : ∀ s ∈ symTexts, (findEntry otherTable s).all (fun e => e.text.length == s.length) = true := by
  decide +kernel

theorem symTexts_long : ∀ s ∈ symTexts, 2 ≤ s.length → (findEntry otherTable s).isSome = true := by
  decide +kernel

theorem pow_found : (findEntry otherTable c!"**=").all (fun e => e.text.map lowerAscii != c!"**=") = true := by
  decide +kernel

theorem otherTable_kinds : ∀ e ∈ otherTable,
    ((e.text.map lowerAscii, e.kw) ∈ symbols ∧
      (e.act = .keep ∧ (e.kw ≠ .ObjectOp ∧ e.kw ≠ .CurlyBracesClose) ∨ e.act = .push .lookingForProperty ∧ e.kw = .ObjectOp ∨
        e.act = .push .inScripting ∧ e.kw = .CurlyBracesOpen ∨ e.act = .pop ∧ e.kw = .CurlyBracesClose ∧ e.text.map lowerAscii = c!"}")) ∨
    (e.text.map lowerAscii = c!"?>" ∧ e.kw = .CloseTag ∧ e.act = .set .initial) ∨
    e.text.map lowerAscii = c!"**=" ∨
    (e.text.map lowerAscii).head?.map (fun c => isLabelChar c && !inRange '0' '9' c) = some true := by
  decide +kernel

theorem longest_found {i : Text} {e : Entry} (hf : findEntry otherTable i = some e) :
    ∀ s ∈ symTexts, s <+: i → s.length ≤ (e.text.map lowerAscii).length := by
  intro s hs hp
  rw [List.length_map]
  rcases Nat.lt_or_ge e.text.length s.length with hlt | h
  · exfalso
    have hm : startsWithCi s e.text = true := by
      obtain ⟨r, rfl⟩ := hp
      have := find_entry_split hf
      unfold startsWithCi
      rw [beq_iff_eq]
      have h2 := List.find?_some hf
      unfold startsWithCi at h2
      rw [beq_iff_eq, List.take_append_of_le_length (by omega)] at h2
      exact h2
    have h1 := symTexts_found s hs
    rw [find_prefix hp hf hm] at h1
    simp only [Option.all_some, beq_iff_eq] at h1
    omega
  · exact h

theorem longest_char {i : Text} (hf : findEntry otherTable i = none) : ∀ s ∈ symTexts, s <+: i → s.length ≤ 1 := by
  intro s hs hp
  rcases Nat.lt_or_ge 1 s.length with h | h
  · have := symTexts_long s hs h
    rw [find_none_prefix hp hf] at this
    cases this
  · exact h

theorem charToken_symbols {c : Char} {k : Kw} (h : charToken c = some k) :
    (([c], k) ∈ symbols ∧ k ≠ .ObjectOp ∧ k ≠ .CurlyBracesClose) ∨ c = '$' ∧ k = .Dollar := by
  unfold charToken at h
  split at h <;> first | (cases h; exact .inl (by decide)) | (cases h; exact .inr ⟨rfl, rfl⟩) | cases h

theorem castAhead_noCast {r : Text} (h : noCast r = true) : ¬ CastAhead r := by
  rintro ⟨b, w, b', q, rfl, hb, hb', k, hk⟩
  have hw : ∀ p ∈ castWords, (p.1.head?.map isGap).getD false = false ∧ p.1 ≠ [] := by decide
  have hf : ∀ p ∈ castWords, (findEntry castTable p.1).all (fun e => e.text.length == p.1.length) = true ∧
      (findEntry castTable p.1).isSome = true := by decide +kernel
  have hl : ∀ p ∈ castWords, p.1.all isLabelChar = true := by decide
  have h1 := hw _ hk
  have h2 := hf _ hk
  have h3 := hl _ hk
  dsimp only at h1 h2 h3
  have hr : ((w ++ b' ++ c!")" ++ q).head?.map isGap).getD false = false := by
    cases w with
    | nil => exact absurd rfl h1.2
    | cons c w => exact h1.1
  unfold noCast at h
  rw [show b ++ w ++ b' ++ c!")" ++ q = b ++ (w ++ b' ++ c!")" ++ q) by simp only [List.append_assoc], dropWhile_gap hb.all hr] at h
  have hsep : ∀ c, (b' ++ (c!")" ++ q)).head? = some c → isLabelChar c = false := by
    intro c hc
    cases b' with
    | nil => cases hc; decide
    | cons d b' =>
      simp only [List.cons_append, List.head?_cons, Option.some.injEq] at hc
      subst hc
      rcases hb' d (by simp) with rfl | rfl <;> decide
  have hfe : findEntry castTable (w ++ (b' ++ (c!")" ++ q))) = findEntry castTable w := by
    have hall : ∀ e ∈ castTable, (e.text.map lowerAscii).all isLabelChar = true := by decide
    generalize castTable = es at hall
    induction es with
    | nil => rfl
    | cons e es ih =>
      unfold findEntry at ih ⊢
      rw [List.find?_cons, List.find?_cons, ih (fun e he => hall e (by simp [he])),
        label_prefix_append h1.2 (List.all_eq_true.1 h3) hsep (.inl (hall e (by simp)))]
  cases he : findEntry castTable w with
  | none => rw [he] at h2; cases h2.2
  | some e =>
    rw [he] at h2
    have h4 : e.text.length = w.length := by simpa using h2.1
    rw [show w ++ b' ++ c!")" ++ q = w ++ (b' ++ (c!")" ++ q)) by simp only [List.append_assoc], hfe, he] at h
    dsimp only at h
    rw [h4, List.drop_left, dropWhile_gap hb'.all rfl] at h
    simp [startsWith] at h

theorem brace_panic {r : Text} (h : At t ('}' :: r)) (hs : t.st.stack = []) : ∃ p, inScriptingOtherToken t = .panic p := by
  have h2 : At t (c!"}" ++ r) := h
  have hm : matchCurlyClose t = .panic .unreachable := by
    unfold matchCurlyClose matchTok
    have hp : popState (t.adv (byteLen c!"}")) = .panic .unreachable := by
      unfold popState
      show T.bnd getSt _ _ = _
      unfold T.bnd getSt
      dsimp only
      rw [Tz.adv_stack, hs]
      rfl
    have hb := advanceBytes_at' h2 (n := byteLen (Kw.repr .CurlyBracesClose)) rfl
    have e1 : (do
        let i ← input
        if startsWithCi i (Kw.repr .CurlyBracesClose) then
          let old ← inputPos
          let _ ← advanceBytes (byteLen (Kw.repr .CurlyBracesClose))
          let p ← inputPos
          Act.pop.run
          return (⟨.k .CurlyBracesClose, mkSpan old p⟩ : TokSpan)
        else fail .none : T TokSpan) t = .panic .unreachable := by
      rw [bind_ok (input_at h), if_pos (by rfl), bind_ok inputPos_at, bind_ok hb, bind_ok inputPos_at]
      show T.bnd popState _ _ = _
      unfold T.bnd
      rw [show byteLen (Kw.repr .CurlyBracesClose) = byteLen c!"}" from rfl, hp]
    show T.bnd _ _ _ = _
    unfold T.bnd
    rw [e1]
  refine ⟨.unreachable, ?_⟩
  unfold inScriptingOtherToken
  rw [orElse_none (matchFirst_none tableA h (by rfl)), orElse_none (yield_none h (by rfl)),
    orElse_none (matchFirst_none tableB h (by rfl)), orElse_none (cast_free h (by rfl)),
    orElse_none (matchFirst_none tableC h (by rfl))]
  unfold T.orElse
  rw [hm]

theorem noYield {i : Text} (h : noIdentifier i) : startsWithCi i c!"yield" = false := by
  cases hy : startsWithCi i c!"yield" with
  | false => rfl
  | true =>
    obtain ⟨v, rfl⟩ := startsWithCi_yield hy
    rcases h with h | ⟨c, r, h, hd⟩
    · cases h
    · cases h; cases hd

/-- Where no name begins: symbols and casts. -/
theorem symbol_lay {i : Text} (hs : Scr t) (hi : At t i) (hne : i ≠ []) (hno : noIdentifier i) (hv : NoVarAt t)
    (hk : NoSymbol i → ∃ r, i = '(' :: r ∧ CastAhead r) :
    Twp True True (labelOrOther t.st.srcPos) t (StepL t) (fun e _ => e ≠ .none) := by
  have hlab := noIdentifier_label hi hno
  have hy := noYield hno
  cases hc : castFree i with
  | false =>
    unfold castFree at hc
    rw [Bool.or_eq_false_iff] at hc
    obtain ⟨r, rfl⟩ := startsWith_split (p := c!"(") (by simpa using hc.1)
    have hn : noCast r = false := hc.2
    obtain ⟨b, r1, rfl, hb, hr1⟩ := gap_split r
    unfold noCast at hn
    rw [dropWhile_gap hb hr1] at hn
    cases hf : findEntry castTable r1 with
    | none => rw [hf] at hn; cases hn
    | some e =>
      rw [hf] at hn
      dsimp only at hn
      have hsp := find_entry_split hf
      generalize hr2 : r1.drop e.text.length = r2 at hn hsp
      obtain ⟨b', r3, rfl, hb', hr3⟩ := gap_split r2
      rw [dropWhile_gap hb' hr3] at hn
      obtain ⟨q, rfl⟩ := startsWith_split (p := c!")") (by simpa using hn)
      subst hsp
      have hi2 : At t ('(' :: (b ++ e.text.map lowerAscii ++ b' ++ ')' :: q)) := by simpa using hi
      have hcast := cast_some hi2 hb hb' (by simpa using hf) rfl
      have ho : inScriptingOtherToken t = .ok ⟨.k e.kw, mkSpan t.st.srcPos (t.st.srcPos +
          (byteLen b + byteLen (e.text.map lowerAscii) + byteLen b' + 2))⟩
          (t.adv (byteLen b + byteLen (e.text.map lowerAscii) + byteLen b' + 2)) := by
        unfold inScriptingOtherToken
        rw [orElse_none (matchFirst_none tableA hi2 (by rfl)), orElse_none (yield_none hi2 (by rfl)),
          orElse_none (matchFirst_none tableB hi2 (by rfl)), orElse_ok hcast]
      have hi3 : At t ((c!"(" ++ b ++ e.text.map lowerAscii ++ b' ++ c!")") ++ q) := by simpa using hi
      have hl := Lay.adv hi3
      have hlen : byteLen (c!"(" ++ b ++ e.text.map lowerAscii ++ b' ++ c!")") = byteLen b + byteLen (e.text.map lowerAscii) + byteLen b' + 2 := by
        simp only [byteLen_append]
        have h1 : byteLen c!"(" = 1 := rfl
        have h2 : byteLen c!")" = 1 := rfl
        omega
      rw [hlen] at hl
      have hw := castTable_words e (List.mem_of_find?_eq_some hf)
      have hk : ∀ p ∈ castWords, p.2 ≠ .ObjectOp ∧ p.2 ≠ .CurlyBracesClose := by decide
      refine Twp.of_ok (lo_none_ok hlab ho) (StepL.sym hi3 (.cast b _ b' e.kw (.of_all hb) hw (.of_all hb')) rfl rfl hl.mv.at' hs.queue
        (.inr ⟨(hk _ hw).1, .inl hs.state⟩) id (.inr (.inr (.inr ⟨(hk _ hw).1, (hk _ hw).2, rfl, rfl⟩))))
  | true =>
  have hns : ¬ NoSymbol i := by
    intro h
    obtain ⟨r, rfl, hcr⟩ := hk h
    exact castAhead_noCast (by simpa [castFree, startsWith] using hc) hcr
  cases hf : findEntry otherTable i with
  | none =>
    have ho := other_none hi hy hc hf
    cases i with
    | nil => exact absurd rfl hne
    | cons c r =>
      cases hk : charToken c with
      | none =>
        rw [orElse_none (oneChar_none hi hk)] at ho
        obtain ⟨e, t', h1, h2⟩ := lo_none_err (e := .unknownCharacter (mkSpan t.st.srcPos (t.st.srcPos + 1))) (t' := t) hlab (ho.trans rfl)
        exact Twp.of_err h1 h2
      | some k =>
        rw [orElse_ok (oneChar_some hi hk)] at ho
        have hc1 : c.utf8Size = 1 := by
          unfold charToken at hk
          split at hk <;> first | rfl | cases hk
        have h2 : At t ([c] ++ r) := hi
        have ha : At (t.adv 1) r := by
          have := At.adv h2
          simpa [byteLen, hc1] using this
        refine Twp.of_ok (lo_none_ok hlab ho) ?_
        rcases charToken_symbols hk with ⟨h1, h3, h4⟩ | ⟨rfl, rfl⟩
        · refine StepL.sym h2 (.symbol h1 ?_ ?_) rfl rfl ha hs.queue (.inr ⟨h3, .inl hs.state⟩) id (.inr (.inr (.inr ⟨h3, h4, rfl, rfl⟩)))
          · exact longest_char hf
          · exact hns
        · exact StepL.sym h2 (.dollar (hv r hi)) rfl rfl ha hs.queue (.inr ⟨nofun, .inl hs.state⟩) id (.inr (.inr (.inr ⟨nofun, nofun, rfl, rfl⟩)))
  | some e =>
    have hm := List.mem_of_find?_eq_some hf
    have hsp := find_entry_split hf
    generalize i.drop e.text.length = r at hsp
    have hlong := longest_found hf
    have hlen := otherTable_len e hm
    have ha : At (t.adv (byteLen e.text)) r := by
      rw [hsp] at hi
      rw [hlen]
      exact At.adv hi
    have hi' := hi
    rw [hsp] at hi' hlong hns
    rcases otherTable_kinds e hm with ⟨h1, h⟩ | ⟨h1, h2, h3⟩ | h | h
    · have hp : Scrap (e.text.map lowerAscii) [.k e.kw] r := .symbol h1 hlong hns
      rcases h with ⟨h2, h3⟩ | ⟨h2, h3⟩ | ⟨h2, h3⟩ | ⟨h2, h3, h4⟩
      · obtain ⟨d, ho⟩ := other_some hi hy hc hf (t' := t.adv (byteLen e.text)) (by rw [h2]; rfl)
        exact Twp.of_ok (lo_none_ok hlab ho) (StepL.sym hi' hp rfl rfl ha hs.queue (.inr ⟨h3.1, .inl hs.state⟩) id (.inr (.inr (.inr ⟨h3.1, h3.2, rfl, rfl⟩))))
      · obtain ⟨d, ho⟩ := other_some hi hy hc hf (by rw [h2]; rfl)
        exact Twp.of_ok (lo_none_ok hlab ho) (StepL.sym hi' hp rfl rfl ha hs.queue (.inl ⟨h3, rfl⟩) (fun hz => busy_push (s := .lookingForProperty) (by nofun) (by nofun) hz) (.inr (.inl ⟨h3, rfl⟩)))
      · obtain ⟨d, ho⟩ := other_some hi hy hc hf (by rw [h2]; rfl)
        exact Twp.of_ok (lo_none_ok hlab ho) (StepL.sym hi' hp rfl rfl ha hs.queue (.inr ⟨by rw [h3]; nofun, .inl rfl⟩) (fun hz => busy_push (s := .inScripting) (by nofun) (by nofun) hz) (.inl h3))
      · cases hst : t.st.stack with
        | nil =>
          rw [h4] at hi'
          obtain ⟨p, hp⟩ := brace_panic hi' hst
          exact Twp.of_panic (lo_none_panic hlab hp) fun _ => trivial
        | cons y ys =>
          obtain ⟨d, ho⟩ := other_some hi hy hc hf (t' := { t.adv (byteLen e.text) with st := { (t.adv (byteLen e.text)).st with state := y, stack := ys } }) (by
            rw [h2]
            simp only [Act.eff, Tz.adv_stack, hst])
          refine Twp.of_ok (lo_none_ok hlab ho) (StepL.sym hi' hp rfl rfl ha hs.queue (.inr ⟨by rw [h3]; nofun, ?_⟩) (fun hz s hs' => hz s (by rw [hst]; exact List.mem_cons_of_mem _ hs')) (.inr (.inr (.inl ⟨h3, hst⟩))))
          rcases hs.stk y (by rw [hst]; simp) with h | h
          · exact .inl h
          · exact .inr (.inr h)
    · obtain ⟨d, ho⟩ := other_some hi hy hc hf (by rw [h3]; rfl)
      refine Twp.of_ok (lo_none_ok hlab ho) ⟨rfl, fun hz => busy_set (s := .initial) (by nofun) (by nofun) hz, .inl ⟨r, ?_, ha, ?_, rfl, hs.queue⟩⟩
      · rw [← h1]; exact hi'
      · rw [h2]
    · exfalso
      have h1 : c!"**=" <+: i := by rw [hsp, h]; exact List.prefix_append _ _
      have h2 := find_prefix h1 hf (by rw [← h]; unfold startsWithCi; rw [beq_iff_eq]; exact List.take_of_length_le (by rw [List.length_map]; exact Nat.le_refl _))
      have h3 := pow_found
      rw [h2] at h3
      simp [h] at h3
    · exfalso
      rw [hsp] at hno
      cases hx : e.text.map lowerAscii with
      | nil => rw [hx] at h; cases h
      | cons c cs =>
        rw [hx] at h hno
        have := noIdentifier_head hno
        simp only [List.head?_cons, Option.map_some, Option.some.injEq] at h
        rw [h] at this
        cases this

/-! ### Words -/

theorem yield_at {b r : Text} (h : At t (c!"yield" ++ (b ++ r))) (hb : b.all isBlank = true)
    (hr : (r.head?.map isBlank).getD false = false) :
    ∃ u, Lay t (c!"yield" ++ b) u r ∧ inScriptingOtherToken t =
      if startsWithCi r c!"from" then .ok ⟨.k .YieldFrom, mkSpan t.st.srcPos (u.st.srcPos + 4)⟩ (u.adv 4)
      else .ok ⟨.k .Yield, mkSpan t.st.srcPos u.st.srcPos⟩ u := by
  have h5 : At (t.adv 5) (b ++ r) := At.adv h
  have hl : Lay t c!"yield" (t.adv 5) (b ++ r) := Lay.adv h
  refine ⟨_, hl.trans (.ws h5 hb), ?_⟩
  have hws : whitespace (t.adv 5) = .ok () ((t.adv 5).ws b) := whitespace_at h5 hb hr
  have h6 : At ((t.adv 5).ws b) r := (hl.trans (.ws h5 hb)).mv.at'
  have hA : matchFirst tableA t = .err .none t := matchFirst_none tableA h (by rfl)
  unfold inScriptingOtherToken
  rw [orElse_none hA]
  split
  · rename_i hf
    obtain ⟨q, hq, _⟩ := startsWithCi_split hf
    have h7 : At ((t.adv 5).ws b) (c!"from" ++ q) := by rw [hq] at h6; exact h6
    refine orElse_ok ?_
    unfold matchYield
    rw [bind_ok (input_at h), if_pos (by rfl)]
    refine (bind_ok inputPos_at).trans ?_
    refine (bind_ok (advanceBytes_at' h rfl)).trans ?_
    refine (bind_ok hws).trans ?_
    refine (bind_ok (input_at h6)).trans ?_
    rw [if_pos hf]
    refine (bind_ok (advanceBytes_at' h7 rfl)).trans ?_
    refine (bind_ok inputPos_at).trans ?_
    rfl
  · rename_i hf
    refine orElse_ok ?_
    unfold matchYield
    rw [bind_ok (input_at h), if_pos (by rfl)]
    refine (bind_ok inputPos_at).trans ?_
    refine (bind_ok (advanceBytes_at' h rfl)).trans ?_
    refine (bind_ok hws).trans ?_
    refine (bind_ok (input_at h6)).trans ?_
    rw [if_neg hf]
    refine (bind_ok inputPos_at).trans ?_
    rfl

theorem lo_some_ok {w : Text} {n : Nat} (hlab : label t = .ok (some (w, mkSpan t.st.srcPos (t.st.srcPos + w.length))) (t.adv n))
    {x : TokSpan} {t' : Tz} (ho : inScriptingOtherToken t = .ok x t') (hle : t.st.srcPos + w.length ≤ x.span.stop) :
    labelOrOther t.st.srcPos t = .ok x { t' with st := { t'.st with srcPos := x.span.stop } } := by
  unfold labelOrOther
  rw [bind_ok (setPos_here rfl), bind_ok hlab, bind_ok (setPos_back rfl)]
  simp only [ho]
  rw [if_pos (by simpa [mkSpan] using hle)]

theorem identifier_of {w : Text} (h : IsLabel w) (ha : ascii w = true) : isIdentifier w = true := by
  have hid : ∀ c ∈ w, isIdChar c = true := by
    intro c hc
    rcases h.2.2 c hc with h | h
    · exact h
    · have := List.all_eq_true.1 ha c hc
      simp only [decide_eq_true_eq] at this
      omega
  cases w with
  | nil => exact absurd rfl h.1
  | cons c cs =>
    simp only [isIdentifier, Bool.and_eq_true, Bool.not_eq_true', List.all_eq_true]
    exact ⟨⟨hid c (by simp), h.2.1 c rfl⟩, fun d hd => hid d (by simp [hd])⟩

theorem IsLabel.toLab {w : Text} (h : IsLabel w) : Lab w := ⟨h.1, h.lab, fun c hc => by rw [← isDigit_iff]; exact h.2.1 c hc⟩

theorem identifierToken_ne (w : Text) : identifierToken w ≠ .k .ObjectOp ∧ identifierToken w ≠ .k .CurlyBracesClose := by
  unfold identifierToken
  cases h : reservedWords.lookup w with
  | none => exact ⟨nofun, nofun⟩
  | some k =>
    have : ∀ p ∈ reservedWords, p.2 ≠ .ObjectOp ∧ p.2 ≠ .CurlyBracesClose := by decide
    have := this _ (lookup_mem h)
    exact ⟨fun h => this.1 (by cases h; rfl), fun h => this.2 (by cases h; rfl)⟩

theorem wordTok_nonascii {w : Text} (h : ascii w = false) : wordTok w = .string w := by
  unfold wordTok
  cases hf : findEntry otherTable w with
  | none => rfl
  | some e =>
    dsimp only
    split
    · rename_i hlen
      exfalso
      have hm : e ∈ otherTable := List.mem_of_find?_eq_some hf
      have hs := List.find?_some hf
      simp only [startsWithCi, beq_iff_eq, hlen, List.take_length] at hs
      have : ∀ e ∈ otherTable, ascii (e.text.map lowerAscii) = true := by decide +kernel
      rw [hs, this e hm] at h
      cases h
    · rfl

theorem blank_all {b : Text} (h : Blank b) : ∀ c ∈ b, isBlank c = true := by
  intro c hc
  have := h c hc
  simp only [isBlank]
  rcases this with rfl | rfl | rfl | rfl <;> rfl

/-- `yield`, perhaps with `from`. -/
theorem yield_lay {w j : Text} (hs : Scr t) (h : At t (c!"yield" ++ j)) {n : Nat}
    (hlab : label t = .ok (some (w, mkSpan t.st.srcPos (t.st.srcPos + w.length))) (t.adv n))
    (hw : w.length ≤ 5 ∧ endsIdentifier j = true ∨ w.length ≤ 9 ∧ ∃ r, j = c!"from" ++ r ∧ endsIdentifier r = true) :
    Twp True True (labelOrOther t.st.srcPos) t (StepL t) (fun e _ => e ≠ .none) := by
  obtain ⟨b, r, rfl, hb, hr⟩ := blank_split j
  obtain ⟨u, hl, ho⟩ := yield_at h hb hr
  have hpos := hl.pos
  rw [byteLen_append, show byteLen c!"yield" = 5 from rfl] at hpos
  have hmv := hl.mv
  by_cases hf : startsWithCi r c!"from" = true
  · rw [if_pos hf] at ho
    obtain ⟨q, hq, _⟩ := startsWithCi_split hf
    have hq' : r = c!"from" ++ q := hq
    subst hq'
    have hle : t.st.srcPos + w.length ≤ u.st.srcPos + 4 := by
      rcases hw with h | h <;> omega
    refine Twp.of_ok (lo_some_ok hlab ho hle) ?_
    have hl2 := hl.trans (.adv hl.mv.at')
    refine (StepM.plain hs hl2 (.yieldFrom b (blank_of hb) ?_) (by intro h; cases h) (by intro h; cases h)).toL
    rintro rfl
    rcases hw with ⟨_, h⟩ | ⟨_, r, h1, h2⟩
    · cases h
    · obtain rfl := List.append_cancel_left (as := c!"from") h1
      exact h2
  · rw [if_neg hf] at ho
    rcases hw with ⟨h1, h2⟩ | ⟨_, h2⟩
    · have hle : t.st.srcPos + w.length ≤ u.st.srcPos := by omega
      refine Twp.of_ok (lo_some_ok hlab ho hle) ?_
      refine ⟨hmv.code, hmv.busy, .inr (.inl ⟨c!"yield", b, r, h, hmv.at', ?_, blank_of hb, .inr ⟨nofun, .inl (hmv.state.trans hs.state)⟩,
        .inr (.inr (.inr (.inr ⟨nofun, nofun, hmv.state, hmv.stack⟩)))⟩)⟩
      show Scrap c!"yield" (.k .Yield :: u.queue.map TokSpan.tok) _
      rw [hmv.queue.trans hs.queue]
      refine Scrap.word (w := c!"yield") (by decide) h2 (by decide) (fun _ => ?_) (fun h => by cases h)
      rintro ⟨b', q, e, hb'⟩
      apply hf
      have := run_unique (p := fun c => isBlank c = true) (List.all_eq_true.1 hb) (blank_all hb') ?_ ?_ (e.trans (List.append_assoc _ _ _))
      · rw [this.2]
        exact startsWithCi_mono (List.prefix_append _ _) (by decide)
      · intro c hc h
        rw [hc] at hr
        simp [h] at hr
      · intro c hc h
        cases hc; cases h
    · exfalso
      obtain ⟨r', h2, _⟩ := h2
      have h2 : c!"from" <+: b ++ r := ⟨r', h2.symm⟩
      apply hf
      cases b with
      | nil => exact startsWithCi_mono h2 (by decide)
      | cons c b =>
        obtain ⟨q, hq⟩ := h2
        have hc : 'f' = c := by simpa using (List.cons.inj hq).1
        subst hc
        exact absurd hb (by simp [isBlank])

/-- Where a name begins. -/
theorem word_lay {w r : Text} (hs : Scr t) (hi : At t (w ++ r)) (hw : IsLabel w) (hr : endsIdentifier r = true)
    (hq : w = c!"b" → ¬ QuoteAhead r) :
    Twp True True (labelOrOther t.st.srcPos) t (StepL t) (fun e _ => e ≠ .none) := by
  have hlw := hw.toLab
  have hr' := endsIdentifier_head hr
  cases ha : ascii w with
  | false =>
    cases hy : startsWithCi w c!"yield" with
    | false =>
      obtain ⟨d, h⟩ := lab_at hi hlw hr' hy
      refine Twp.of_ok h ⟨rfl, id, .inr (.inr ⟨w, r, hi, hw, hr, wordTok_nonascii ha, ha⟩)⟩
    | true =>
      obtain ⟨v, rfl⟩ := startsWithCi_yield hy
      refine Twp.of_ok (lab_yield hi hlw hr' ?_ ?_) ⟨rfl, id, .inr (.inr ⟨_, r, hi, hw, hr, rfl, ha⟩)⟩
      · rintro rfl; cases ha
      · rintro rfl; cases ha
  | true =>
    have hid := identifier_of hw ha
    by_cases h1 : w = c!"yield"
    · subst h1
      exact yield_lay hs hi (label_some hi hlw.ne hlw.lab hlw.dig hr') (.inl ⟨Nat.le_refl _, hr⟩)
    · by_cases h2 : w = c!"yieldfrom"
      · subst h2
        exact yield_lay (j := c!"from" ++ r) hs hi (label_some hi hlw.ne hlw.lab hlw.dig hr') (.inr ⟨Nat.le_refl _, r, rfl, hr⟩)
      · obtain ⟨d, h⟩ := identifier_at hi (.of_identifier hid) hr' (fun h => absurd h h1) h2
        refine Twp.of_ok h ?_
        have hl := Lay.adv hi
        rw [byteLen_ascii ha] at hl
        exact (StepM.plain hs hl (.word hid hr h2 (fun h => absurd h h1) hq) (identifierToken_ne w).1 (identifierToken_ne w).2).toL

theorem labelOrOther_lay {i : Text} (hs : Scr t) (hi : At t i) (hne : i ≠ []) (hv : NoVarAt t)
    (hk : NoSymbol i → ∃ r, i = '(' :: r ∧ CastAhead r) (hq : ∀ r, i = 'b' :: r → ¬ QuoteAhead r) :
    Twp True True (labelOrOther t.st.srcPos) t (StepL t) (fun e _ => e ≠ .none) := by
  obtain ⟨a, b, rfl, ha, hb⟩ := span_at (fun c => !isLabelChar c) i
  have hb' : ∀ c, b.head? = some c → isLabelChar c = false := fun c hc => by simpa using hb c hc
  have ha' : ∀ c ∈ a, isLabelChar c = true := fun c hc => by simpa using ha c hc
  cases a with
  | nil => exact symbol_lay hs hi hne (.inl (endsIdentifier_of hb')) hv hk
  | cons c a =>
    cases hd : inRange '0' '9' c with
    | true => exact symbol_lay hs hi hne (.inr ⟨c, a ++ b, rfl, by rw [isDigit_iff]; exact hd⟩) hv hk
    | false =>
      have hd' : ∀ d, (c :: a).head? = some d → inRange '0' '9' d = false := fun d h => by cases h; exact hd
      exact word_lay hs hi (isLabel_of nofun hd' ha') (endsIdentifier_of hb') fun h => hq b (by rw [h]; rfl)

end
end Pico
