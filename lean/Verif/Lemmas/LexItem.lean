import Verif.Spec.Source
import Verif.Props.Lexing
import Verif.Lemmas.TokenizerMono
import Verif.Lemmas.LexDq
import Verif.Lemmas.TokNext
/-!
# Lexemes are read as their tokens
-/
namespace Pico
open T

/-! ### Symbols -/

theorem symbols_head : ∀ p ∈ symbols, ∃ c r, p.1 = c :: r ∧ isLabelChar c = false ∧ notDigit c = true ∧ isBlank c = false ∧
    c ≠ 'y' ∧ c ≠ '$' ∧ c ≠ '"' ∧ c ≠ '\'' ∧ c ≠ '`' ∧ c ≠ '#' ∧ c ≠ 'b' := by
  have : ∀ p ∈ symbols, ∃ c, p.1.head? = some c ∧ isLabelChar c = false ∧ notDigit c = true ∧ isBlank c = false ∧
      c ≠ 'y' ∧ c ≠ '$' ∧ c ≠ '"' ∧ c ≠ '\'' ∧ c ≠ '`' ∧ c ≠ '#' ∧ c ≠ 'b' := by
    have h : ∀ p ∈ symbols, p.1.head?.any (fun c => isLabelChar c == false && notDigit c && isBlank c == false &&
      c != 'y' && c != '$' && c != '"' && c != '\'' && c != '`' && c != '#' && c != 'b') = true := by decide +kernel
    intro p hp
    have h1 := h p hp
    cases hh : p.1.head? with
    | none => rw [hh] at h1; cases h1
    | some c =>
      rw [hh] at h1
      simp only [Option.any_some, Bool.and_eq_true, beq_iff_eq, bne_iff_ne] at h1
      obtain ⟨⟨⟨⟨⟨⟨⟨⟨⟨a, b⟩, c'⟩, d⟩, e⟩, f⟩, g⟩, h⟩, i⟩, j⟩ := h1
      exact ⟨c, rfl, a, b, c', d, e, f, g, h, i, j⟩
  intro p hp
  obtain ⟨c, hc, h⟩ := this p hp
  cases hw : p.1 with
  | nil => rw [hw] at hc; cases hc
  | cons d r => rw [hw] at hc; cases hc; exact ⟨c, r, rfl, h⟩

theorem otherTable_symbols : ∀ e ∈ otherTable,
    (e.text.map lowerAscii).head?.any isLabelChar = true ∨
    e.text.map lowerAscii ∈ (c!"?>" :: c!"**=" :: symbols.map Prod.fst) := by decide +kernel

theorem not_prefix_of {w s : Text} {c : Char} (h : (!(w ++ [c]).isPrefixOf s) = true) :
    s.take (w.length + 1) ≠ w ++ [c] := by
  intro heq
  have h1 : (w ++ [c]) <+: s := by
    rw [← heq]; exact List.take_prefix _ _
  rw [List.isPrefixOf_iff_prefix.mpr h1] at h
  cases h

theorem stops_okNext {w : Text} {k : Kw} {c : Char} (hw : (w, k) ∈ symbols) (h : stops w c = true) :
    okNext w c = true := by
  simp only [okNext, List.all_eq_true, bne_iff_ne]
  intro e he
  simp only [stops, Bool.and_eq_true, List.all_eq_true] at h
  obtain ⟨h1, -⟩ := h
  obtain ⟨d, r, hd, hl, -⟩ := symbols_head _ hw
  dsimp only at hd
  rcases otherTable_symbols e he with h2 | h2
  · intro heq
    cases ht : e.text.map lowerAscii with
    | nil => rw [ht] at h2; cases h2
    | cons x xs =>
      rw [ht] at h2 heq
      rw [hd] at heq
      simp only [List.length_cons, List.take_succ_cons, List.cons_append, List.cons.injEq] at heq
      rw [heq.1] at h2
      simp [hl] at h2
  · simp only [List.mem_cons] at h2
    rcases h2 with h2 | h2 | h2
    · rw [h2]; exact not_prefix_of (h1 _ (by simp))
    · rw [h2]; exact not_prefix_of (h1 _ (by simp))
    · exact not_prefix_of (h1 _ (by simp [h2]))

theorem startsWith_cut {w rest s : Text} (h : startsWith (w ++ rest) s = true) :
    s <+: w ∨ ∃ c, rest.head? = some c ∧ (w ++ [c]) <+: s := by
  have h1 := startsWith_prefix h
  by_cases hl : s.length ≤ w.length
  · exact .inl (List.prefix_of_prefix_length_le h1 (List.prefix_append w rest) hl)
  · right
    cases rest with
    | nil => rw [List.append_nil] at h1; exact absurd h1.length_le hl
    | cons c rest =>
      refine ⟨c, rfl, List.prefix_of_prefix_length_le ?_ h1 (by simp; omega)⟩
      exact ⟨rest, by simp⟩

/-- Nothing longer is read in place of a symbol. -/
theorem stops_not {w rest s : Text} (hs : s ∈ (c!"?>" :: c!"**=" :: c!"//" :: c!"/*" :: c!"<<<" :: symbols.map Prod.fst))
    (hn : ∀ c, rest.head? = some c → stops w c = true) (hw : ¬ s <+: w) : startsWith (w ++ rest) s = false := by
  cases h : startsWith (w ++ rest) s with
  | false => rfl
  | true =>
    rcases startsWith_cut h with h1 | ⟨c, hc, h1⟩
    · exact absurd h1 hw
    · have h2 := hn c hc
      simp only [stops, Bool.and_eq_true, List.all_eq_true] at h2
      have h3 := h2.1 s hs
      rw [List.isPrefixOf_iff_prefix.mpr h1] at h3
      cases h3

/-- How the tables treat the symbols. -/
def symAct : Kw → Act
  | .ObjectOp => .push .lookingForProperty
  | .CurlyBracesOpen => .push .inScripting
  | .CurlyBracesClose => .pop
  | _ => .keep

deriving instance DecidableEq for Entry

theorem symbols_table : ∀ p ∈ symbols,
    findEntry otherTable p.1 = some ⟨p.1, p.2, symAct p.2⟩ ∨
    (findEntry otherTable p.1 = none ∧ symAct p.2 = .keep ∧ p.1.length = 1 ∧ p.1.head?.bind charToken = some p.2) := by
  decide +kernel

theorem symbols_no_comment : ∀ p ∈ symbols, ¬ c!"//" <+: p.1 ∧ ¬ c!"/*" <+: p.1 ∧ ¬ c!"<<<" <+: p.1 := by
  decide +kernel

theorem symbols_dot : ∀ p ∈ symbols, p.1.head? = some '.' → p.1 = c!"." ∨ ∃ d r, p.1 = '.' :: d :: r ∧ notDigit d = true := by
  have : ∀ p ∈ symbols, p.1.head? = some '.' → p.1 = c!"." ∨ p.1 = c!"..." ∨ p.1 = c!".=" := by decide +kernel
  intro p hp h
  rcases this p hp h with h | h | h
  · exact .inl h
  · exact .inr ⟨'.', ['.'], h, by decide⟩
  · exact .inr ⟨'=', [], h, by decide⟩

theorem plain_sym {w rest : Text} {k : Kw} (hw : (w, k) ∈ symbols)
    (hn : ∀ c, rest.head? = some c → stops w c = true) (hdot : w = c!"." → rest ≠ []) : plain (w ++ rest) = true := by
  obtain ⟨c, r, hc, g1, g2, g3, g4, g5, g6, g7, g8, g9, g10⟩ := symbols_head _ hw
  obtain ⟨n1, n2, n3⟩ := symbols_no_comment _ hw
  dsimp only at hc n1 n2 n3
  have q1 := stops_not (s := c!"//") (by simp) hn n1
  have q2 := stops_not (s := c!"/*") (by simp) hn n2
  have q3 := stops_not (s := c!"<<<") (by simp) hn n3
  have q4 : c = '.' → (match r ++ rest with | [] => false | d :: _ => notDigit d) = true := by
    intro hcd
    subst hcd
    rcases symbols_dot _ hw (by rw [show (w, k).1 = w from rfl, hc]; rfl) with h | ⟨d, r', h, hd⟩
    · dsimp only at h
      have := hdot h
      rw [h] at hc
      cases hc
      cases rest with
      | nil => exact absurd rfl this
      | cons x xs =>
        have hx := hn x rfl
        rw [h] at hx
        simp only [stops, Bool.and_eq_true, Bool.not_eq_true', beq_self_eq_true, Bool.true_and] at hx
        have hx := hx.2
        rw [isDigit_iff] at hx
        show notDigit x = true
        rw [notDigit_inRange, hx]
        rfl
    · dsimp only at h
      rw [h] at hc
      cases hc
      exact hd
  rw [hc] at q1 q2 q3 ⊢
  have hb : ∀ p, startsWith (c :: (r ++ rest)) ('b' :: p) = false := fun p => startsWith_head_ne g10
  simp only [List.cons_append] at q1 q2 q3
  simp only [List.cons_append, plain, q1, q2, q3, hb, g2]
  simp only [Bool.not_true, Bool.false_or, Bool.or_false, Bool.and_eq_true, Bool.not_eq_true', Bool.or_eq_false_iff,
    beq_eq_false_iff_ne, Bool.or_eq_true, bne_iff_ne]
  refine ⟨⟨⟨⟨⟨g6, g7⟩, g8⟩, g9⟩, ?_⟩, .inl g5⟩
  by_cases hcd : c = '.'
  · exact .inr (q4 hcd)
  · exact .inl hcd

theorem castTable_words : ∀ e ∈ castTable, (e.text.map lowerAscii, e.kw) ∈ castWords := by decide +kernel

theorem Spaces.of_all {w : Text} (h : w.all isGap = true) : Spaces w := by
  intro c hc
  have := List.all_eq_true.mp h c hc
  simpa [isGap] using this

theorem Spaces.all {w : Text} (h : Spaces w) : w.all isGap = true := by
  rw [List.all_eq_true]
  intro c hc
  rcases h c hc with rfl | rfl <;> rfl

theorem noCast_of {rest : Text} (h : ¬ CastAhead rest) : noCast rest = true := by
  obtain ⟨w, r, rfl, hw, hr⟩ := gap_split rest
  unfold noCast
  rw [dropWhile_gap hw hr]
  cases hf : findEntry castTable r with
  | none => rfl
  | some e =>
    dsimp only
    have hsp := find_entry_split hf
    generalize r.drop e.text.length = r2 at hsp ⊢
    obtain ⟨w2, r3, rfl, hw2, hr2⟩ := gap_split r2
    rw [dropWhile_gap hw2 hr2]
    cases hs : startsWith r3 c!")" with
    | false => rfl
    | true =>
      exfalso
      apply h
      obtain ⟨r4, rfl⟩ := startsWith_split hs
      refine ⟨w, e.text.map lowerAscii, w2, r4, ?_, .of_all hw, .of_all hw2, e.kw,
        castTable_words e (List.mem_of_find?_eq_some hf)⟩
      rw [hsp]
      simp only [List.append_assoc]

theorem castFree_sym {w rest : Text} {k : Kw} (hw : (w, k) ∈ symbols) (h : w = c!"(" → ¬ CastAhead rest) :
    castFree (w ++ rest) = true := by
  have : ∀ p ∈ symbols, startsWith p.1 c!"(" = true → p.1 = c!"(" := by decide +kernel
  have h1 := this _ hw
  dsimp only at h1
  obtain ⟨c, r, hc, -⟩ := symbols_head _ hw
  dsimp only at hc
  unfold castFree
  cases hs : startsWith (w ++ rest) c!"(" with
  | false => rfl
  | true =>
    have : w = c!"(" := by
      apply h1
      rw [hc] at hs ⊢
      simpa [startsWith] using hs
    rw [this]
    exact noCast_of (h this)

/-! ### The modes of the tokenizer -/

/-- In script mode or behind `->`, with `d` open braces. -/
structure Mode (t : Tz) (prop : Bool) (d : Nat) : Prop where
  state : t.st.state = if prop then .lookingForProperty else .inScripting
  stack : t.st.stack = List.replicate (if prop then d + 1 else d) .inScripting

/-- Where the tokenizer is when `rest` is still to be read, where some blanks may have been consumed. -/
def Ahead (t : Tz) (rest : Text) : Prop := ∃ b g r, rest = b ++ r ∧ Blank b ∧ Blank g ∧ At t (g ++ r)

theorem Ahead.of_at {t : Tz} {r : Text} (h : At t r) : Ahead t r := ⟨[], [], r, rfl, nofun, nofun, h⟩

/-- The effect of reading a lexeme. -/
def StepTo (t : Tz) (n : Nat) (tok : Token) (rest : Text) (prop : Bool) (d : Nat) : Prop :=
  ∃ sp t', nextToken n t = .ok ⟨tok, sp⟩ t' ∧ Ahead t' rest ∧ Mode t' prop d

theorem Mode.inScript {t : Tz} {d : Nat} {r : Text} (h : Mode t false d) (ha : At t r) : InScript t r :=
  ⟨h.state, ha.remaining⟩

theorem Mode.of {t t' : Tz} {d : Nat} {r : Text} (h : Mode t false d) (h1 : InScript t' r ∧ t'.st.stack = t.st.stack) :
    Mode t' false d := ⟨h1.1.1, h1.2.trans h.stack⟩

/-- The braces open behind a symbol. -/
def symDepth (d : Nat) : Kw → Option Nat
  | .CurlyBracesOpen => some (d + 1)
  | .CurlyBracesClose => if d = 0 then none else some (d - 1)
  | _ => some d

theorem step_sym {t : Tz} {d d' : Nat} {g w rest : Text} {k : Kw} (hg : Blank g) (hat : At t (g ++ (w ++ rest)))
    (hm : Mode t false d) (hw : (w, k) ∈ symbols) (hn : ∀ c, rest.head? = some c → stops w c = true)
    (hc : w = c!"(" → ¬ CastAhead rest) (hdot : w = c!"." → rest ≠ []) (hd : symDepth d k = some d') (n : Nat) :
    StepTo t (n + 1) (.k k) rest (k == .ObjectOp) d' := by
  have hmv := Moved.ws hat hg.all
  have hpl := plain_sym hw hn hdot
  obtain ⟨c, r, hcw, g1, g2, g3, g4, g5, -⟩ := symbols_head _ hw
  dsimp only at hcw
  have hbl : ((w ++ rest).head?.map isBlank).getD false = false := by rw [hcw]; simpa using g3
  have hrun := plain_scripting (nextToken n) n hat hg.all hbl hpl
  have hcf := castFree_sym (rest := rest) hw hc
  have hok : ∀ c, rest.head? = some c → okNext w c = true := fun c hc => stops_okNext hw (hn c hc)
  have hstk := hmv.stack.trans hm.stack
  have hst := hmv.state.trans hm.state
  rcases symbols_table _ hw with hf | ⟨hf, ha, h1, h2⟩
  · dsimp only at hf
    have hact : ∃ t', (symAct k).eff ((t.ws g).adv (byteLen w)) = some t' ∧ At t' rest ∧ Mode t' (k == .ObjectOp) d' := by
      have hat2 : At ((t.ws g).adv (byteLen w)) rest := At.adv hmv.at'
      by_cases k1 : k = .ObjectOp
      · subst k1
        cases hd
        refine ⟨_, rfl, hat2, rfl, ?_⟩
        show (t.ws g).st.state :: (t.ws g).st.stack = _
        rw [hst, hstk]
        rfl
      by_cases k2 : k = .CurlyBracesOpen
      · subst k2
        cases hd
        refine ⟨_, rfl, hat2, rfl, ?_⟩
        show (t.ws g).st.state :: (t.ws g).st.stack = _
        rw [hst, hstk]
        rfl
      by_cases k3 : k = .CurlyBracesClose
      · subst k3
        cases d with
        | zero => cases hd
        | succ d =>
          cases hd
          have e : ((t.ws g).adv (byteLen w)).st.stack = .inScripting :: List.replicate d .inScripting := hstk
          refine ⟨{ (t.ws g).adv (byteLen w) with st :=
            { ((t.ws g).adv (byteLen w)).st with state := .inScripting, stack := List.replicate d .inScripting } }, ?_, hat2, rfl, rfl⟩
          simp only [symAct, Act.eff, e]
      · have ek : symAct k = .keep := by
          unfold symAct
          split <;> first | contradiction | rfl
        have ed : d' = d := by
          have : symDepth d k = some d := by
            unfold symDepth
            split <;> first | contradiction | rfl
          rw [this] at hd
          exact (Option.some.inj hd).symm
        rw [ek, ed]
        refine ⟨_, rfl, hat2, ?_, ?_⟩
        · have : (k == Kw.ObjectOp) = false := beq_eq_false_iff_ne.mpr k1
          rw [this]
          exact hst
        · have : (k == Kw.ObjectOp) = false := beq_eq_false_iff_ne.mpr k1
          rw [this]
          exact hstk
    obtain ⟨t', ht', hat', hm'⟩ := hact
    obtain ⟨dc, hdc⟩ := op_table (e := ⟨w, k, symAct k⟩) hmv.at' rfl
      (by intro x hx; rw [hcw] at hx; cases hx; exact .inl g1) (by rw [hcw]; nofun)
      (by intro x hx; rw [hcw] at hx; cases hx; exact g4) hcf hok hf ht'
    exact ⟨_, t', next_scripting hm.state (hrun.trans hdc), .of_at hat', hm'⟩
  · dsimp only at hf h1 h2
    rw [hcw] at h1 h2 hf hat hmv hok hcf
    have hr : r = [] := by
      cases r with
      | nil => rfl
      | cons _ _ => simp at h1
    subst hr
    simp only [List.head?_cons, Option.bind_some] at h2
    have hop := op_char hmv.at' h2 hcf hok hf
    have hu : byteLen [c] = 1 := by
      have : c.utf8Size = 1 := by
        unfold charToken at h2
        split at h2 <;> first | rfl | cases h2
      simp [byteLen, this]
    have hat2 : At ((t.ws g).adv 1) rest := by rw [← hu]; exact At.adv hmv.at'
    have hk1 : k ≠ .ObjectOp := by rintro rfl; cases ha
    have hk2 : symDepth d k = some d := by
      unfold symDepth
      split
      · cases ha
      · cases ha
      · rfl
    rw [hk2] at hd
    cases hd
    refine ⟨_, _, next_scripting hm.state (hrun.trans hop), .of_at hat2, ?_⟩
    rw [beq_eq_false_iff_ne.mpr hk1]
    exact ⟨hst, hstk⟩

/-! ### Words -/

theorem blank_cut (i : Text) : ∃ w r, i = w ++ r ∧ Blank w ∧ (r.head?.map isBlank).getD false = false := by
  induction i with
  | nil => exact ⟨[], [], rfl, nofun, rfl⟩
  | cons c i ih =>
    cases hc : isBlank c with
    | false => exact ⟨[], c :: i, rfl, nofun, by simp [hc]⟩
    | true =>
      obtain ⟨w, r, rfl, h1, h2⟩ := ih
      refine ⟨c :: w, r, rfl, ?_, h2⟩
      intro d hd
      rcases List.mem_cons.mp hd with rfl | hd
      · simpa [isBlank, or_assoc] using hc
      · exact h1 d hd

/-- `yield` and the blanks behind it. -/
theorem yield_blank {t : Tz} {b r : Text} (h : At t (c!"yield" ++ (b ++ r))) (hb : Blank b)
    (hr : ((r.head?.map isBlank).getD false) = false) (he : ∀ c, (b ++ r).head? = some c → isLabelChar c = false)
    (hf : ¬ c!"from" <+: r) :
    ∃ sp t', labelOrOther t.st.srcPos t = .ok ⟨.k .Yield, sp⟩ t' ∧ Moved t t' r := by
  have hlab := label_some h (by simp) (by decide) (by decide) he
  have hA : matchFirst tableA t = .err .none t := matchFirst_none tableA h (by rfl)
  have h5 : At (t.adv 5) (b ++ r) := At.adv h
  have hm := Moved.ws h5 hb.all
  have hws : whitespace (t.adv 5) = .ok () ((t.adv 5).ws b) := whitespace_at h5 hb.all hr
  have hf' : startsWithCi r c!"from" = false := by
    cases hx : startsWithCi r c!"from" with
    | false => rfl
    | true =>
      obtain ⟨q, hq, _⟩ := startsWithCi_split hx
      exact absurd ⟨q, by rw [hq]; rfl⟩ hf
  have hpos : ((t.adv 5).ws b).st.srcPos = t.st.srcPos + 5 + byteLen b := (wsGo_fields b hb.all (t.adv 5).st).1
  have hy : matchYield t = .ok ⟨.k .Yield, mkSpan t.st.srcPos ((t.adv 5).ws b).st.srcPos⟩ ((t.adv 5).ws b) := by
    unfold matchYield
    rw [bind_ok (input_at h), if_pos (by rfl)]
    refine (bind_ok inputPos_at).trans ?_
    refine (bind_ok (advanceBytes_at' h rfl)).trans ?_
    refine (bind_ok hws).trans ?_
    refine (bind_ok (input_at hm.at')).trans ?_
    rw [if_neg (by simp [hf'])]
    refine (bind_ok inputPos_at).trans ?_
    rfl
  have ho : inScriptingOtherToken t = .ok ⟨.k .Yield, mkSpan t.st.srcPos ((t.adv 5).ws b).st.srcPos⟩ ((t.adv 5).ws b) := by
    unfold inScriptingOtherToken
    rw [orElse_none hA, orElse_ok hy]
  refine ⟨mkSpan t.st.srcPos ((t.adv 5).ws b).st.srcPos, (t.adv 5).ws b, ?_, (Moved.adv h).trans hm⟩
  unfold labelOrOther
  rw [bind_ok (setPos_here rfl), bind_ok hlab, bind_ok (setPos_back rfl)]
  simp only [ho]
  rw [if_pos (by simp only [mkSpan, hpos]; simp)]
  rfl

variable {t : Tz} {d : Nat} {g rest : Text}

theorem step_word {w : Text} (hg : Blank g) (hat : At t (g ++ (w ++ rest))) (hm : Mode t false d)
    (hok : (Lexeme.word w).Ok) (hb : (Lexeme.word w).Before false rest) (n : Nat) :
    StepTo t (n + 1) (identifierToken w) rest false d := by
  obtain ⟨h1, h2⟩ := hok
  obtain ⟨h3, h4⟩ := hb
  obtain ⟨h4, h5⟩ := h4 rfl
  have hword := Word.of_identifier h1
  have hr := endsIdentifier_head h3
  have hmv := Moved.ws hat hg.all
  have hpl : plain (w ++ rest) = true := plain_word hword (by
    intro hwb hs
    rcases hs with hs | hs | hs
    · exact h5 hwb (.inl (startsWith_prefix hs))
    · exact h5 hwb (.inr (.inl (startsWith_prefix hs)))
    · exact h5 hwb (.inr (.inr (startsWith_prefix hs))))
  have hbl : ((w ++ rest).head?.map isBlank).getD false = false := by
    cases w with
    | nil => exact absurd rfl hword.ne
    | cons c w => simp [label_not_blank (hword.lab c (by simp))]
  have hrun := plain_scripting (nextToken n) n hat hg.all hbl hpl
  by_cases hy : w = c!"yield"
  · subst hy
    obtain ⟨b, r, hbr, hbb, hrr⟩ := blank_cut rest
    subst hbr
    obtain ⟨sp, t', ht, hmv2⟩ := yield_blank hmv.at' hbb hrr hr (by
      rintro ⟨q, rfl⟩
      exact h4 rfl ⟨b, q, by simp, hbb⟩)
    have hall := hmv.trans hmv2
    exact ⟨sp, t', next_scripting hm.state (hrun.trans ht), ⟨b, [], r, rfl, hbb, nofun, hall.at'⟩,
      hall.state.trans hm.state, hall.stack.trans hm.stack⟩
  · obtain ⟨dc, hd⟩ := identifier_at hmv.at' hword hr (fun h => absurd h hy) h2
    have hm2 := Moved.adv' hmv.at' (n := w.length) (byteLen_ascii hword.asc).symm
    have hall := hmv.trans hm2
    exact ⟨_, _, next_scripting hm.state (hrun.trans hd), .of_at hall.at',
      hall.state.trans hm.state, hall.stack.trans hm.stack⟩

theorem step_var {w : Text} (hg : Blank g) (hat : At t (g ++ ('$' :: (w ++ rest)))) (hm : Mode t false d)
    (hok : isIdentifier w = true) (hb : endsIdentifier rest = true) (n : Nat) :
    StepTo t (n + 1) (.variable w) rest false d := by
  have hword := Word.of_identifier hok
  have hr := endsIdentifier_head hb
  have hmv := Moved.ws hat hg.all
  have h := hmv.at'
  have hm2 := Moved.adv' (a := '$' :: w) h (n := 1 + w.length) (by
    rw [byteLen_cons_ascii _ _ (by decide), byteLen_ascii hword.asc])
  have hall := hmv.trans hm2
  refine ⟨mkSpan (t.ws g).st.srcPos ((t.ws g).st.srcPos + 1 + w.length), _,
    next_scripting hm.state ((scripting_start _ _ hat hg.all rfl (by simp)).trans ?_), .of_at hall.at',
    hall.state.trans hm.state, hall.stack.trans hm.stack⟩
  · rw [orElse_none (hereNowDoc_none _ _ h rfl rfl), orElse_none (show bnum _ = _ from prefixedNum_none _ _ _ h rfl),
      orElse_none (show hnum _ = _ from prefixedNum_none _ _ _ h rfl),
      orElse_none (onum_none h (by simp) (by intro c hc; cases hc; decide) rfl),
      orElse_none (dqString_none _ _ h rfl rfl), orElse_ok (variable_some h hword hr)]

theorem step_int {lit : Text} {v : Nat} (hg : Blank g) (hat : At t (g ++ (lit ++ rest))) (hm : Mode t false d)
    (hok : IntLit lit v ∧ v < 2 ^ 63) (hb : endsNumber rest = true) (n : Nat) :
    StepTo t (n + 1) (.int v) rest false d := by
  obtain ⟨sp, t', h1, h2, h3⟩ := C12_integers t g lit rest v hg hok.1 hok.2 hb
    (hm.inScript (by rw [List.append_assoc]; exact hat)) n
  exact ⟨sp, t', h1, .of_at h2.at, hm.of ⟨h2, h3⟩⟩

theorem step_double {ds fs : Text} (hg : Blank g) (hat : At t (g ++ (ds ++ '.' :: (fs ++ rest)))) (hm : Mode t false d)
    (hok : (Lexeme.double ds fs).Ok) (hb : endsNumber rest = true) (n : Nat) :
    StepTo t (n + 1) (.double (ds ++ c!"." ++ fs)) rest false d := by
  obtain ⟨hne, hd, hf⟩ := hok
  have hmv := Moved.ws hat hg.all
  have h := hmv.at'
  have hnd : ∀ c ∈ ds, notDigit c = false := fun c hc => notDigit_of_isDigit (hd c hc)
  have hnf : ∀ c ∈ fs, notDigit c = false := fun c hc => notDigit_of_isDigit (hf c hc)
  obtain ⟨g1, g2, g3⟩ := digit_start (r := '.' :: (fs ++ rest)) hne hd
  have hh := endsNumber_head hb
  obtain ⟨sp, hon⟩ := onum_double h hnd hnf (fun c hc => (hh c hc).1) (.inl hne)
  have h' : At (t.ws g) ((ds ++ c!"." ++ fs) ++ rest) := by simpa using h
  have hm2 := Moved.adv' h' (n := ds.length + 1 + fs.length) (by
    rw [byteLen_append, byteLen_append, byteLen_ascii (digits_ascii hnd), byteLen_ascii (digits_ascii hnf)]; rfl)
  have hall := hmv.trans hm2
  have hx : ∀ x, isIdChar x = true → x.isDigit = false → startsWith (ds ++ '.' :: (fs ++ rest)) ['0', x] = false := by
    intro x hx hxd
    cases ds with
    | nil => exact absurd rfl hne
    | cons c ds =>
      cases ds with
      | nil =>
        have : '.' ≠ x := by rintro rfl; revert hx; decide
        simp [startsWith, this]
      | cons c2 ds =>
        have : c2 ≠ x := by rintro rfl; rw [hd c2 (by simp)] at hxd; cases hxd
        simp [startsWith, this]
  refine ⟨sp, _, next_scripting hm.state ((scripting_start _ _ hat hg.all g3 (by simp)).trans ?_), .of_at hall.at',
      hall.state.trans hm.state, hall.stack.trans hm.stack⟩
  rw [orElse_none (hereNowDoc_none _ _ h g1 g2),
    orElse_none (show bnum _ = _ from prefixedNum_none _ _ _ h (hx 'b' (by decide) (by decide))),
    orElse_none (show hnum _ = _ from prefixedNum_none _ _ _ h (hx 'x' (by decide) (by decide))),
    orElse_ok hon]
  simp

theorem Quoted.items {b s : Text} (h : Quoted b s) :
    ∃ its : List SqItem, (∀ x ∈ its, x.ok = true) ∧ its.flatMap SqItem.src = b ∧ its.flatMap SqItem.val = s := by
  induction h with
  | nil => exact ⟨[], nofun, rfl, rfl⟩
  | plain c h _ ih =>
    obtain ⟨its, h1, h2, h3⟩ := ih
    exact ⟨.plain c :: its, by simp [SqItem.ok, h, h1]; exact h1, by simp [SqItem.src, h2], by simp [SqItem.val, h3]⟩
  | esc c h _ ih =>
    obtain ⟨its, h1, h2, h3⟩ := ih
    exact ⟨.esc c :: its, by simp [SqItem.ok, h]; exact h1, by simp [SqItem.src, h2], by simp [SqItem.val, h3]⟩
  | raw c h _ ih =>
    obtain ⟨its, h1, h2, h3⟩ := ih
    exact ⟨.raw c :: its, by simp [SqItem.ok, h]; exact h1, by simp [SqItem.src, h2], by simp [SqItem.val, h3]⟩

theorem step_str {b s : Text} (hg : Blank g) (hat : At t (g ++ (c!"'" ++ b ++ c!"'" ++ rest))) (hm : Mode t false d)
    (hok : Quoted b s) (n : Nat) : StepTo t (n + 1) (.encaps s) rest false d := by
  obtain ⟨its, h1, rfl, rfl⟩ := hok.items
  obtain ⟨sp, t', h2, -, -, h3⟩ := read_sq t g its h1 rest hg
    (hm.inScript (by simpa only [List.append_assoc] using hat)) n
  exact ⟨sp, t', h2, .of_at h3.1.at, hm.of h3⟩

theorem castWords_table (p : Text × Kw) (hp : p ∈ castWords) (c : Char) (hc : c = ' ' ∨ c = '\t' ∨ c = ')') (r : Text) :
    ∃ e, findEntry castTable (p.1 ++ c :: r) = some e ∧ p.1 = e.text.map lowerAscii ∧ e.kw = p.2 := by
  simp only [castWords, List.mem_cons, List.not_mem_nil, or_false] at hp
  rcases hp with rfl | rfl | rfl | rfl | rfl | rfl | rfl | rfl | rfl | rfl | rfl <;>
    rcases hc with rfl | rfl | rfl <;> exact ⟨_, rfl, rfl, rfl⟩

theorem step_cast {b w b' : Text} {k : Kw} (hg : Blank g)
    (hat : At t (g ++ ('(' :: (b ++ w ++ b' ++ ')' :: rest)))) (hm : Mode t false d)
    (hok : (Lexeme.cast b w b' k).Ok) (n : Nat) : StepTo t (n + 1) (.k k) rest false d := by
  obtain ⟨h1, h2, h3⟩ := hok
  have hmv := Moved.ws hat hg.all
  have h := hmv.at'
  have ht : ∃ c q, b' ++ ')' :: rest = c :: q ∧ (c = ' ' ∨ c = '\t' ∨ c = ')') := by
    cases b' with
    | nil => exact ⟨')', rest, rfl, .inr (.inr rfl)⟩
    | cons c q =>
      refine ⟨c, q ++ ')' :: rest, rfl, ?_⟩
      rcases h2 c (by simp) with h | h
      · exact .inl h
      · exact .inr (.inl h)
  obtain ⟨c, q, hcq, hc⟩ := ht
  obtain ⟨e, he1, he2, he3⟩ := castWords_table _ h3 c hc q
  dsimp only at he1 he2 he3
  have hcast := cast_some h h1.all h2.all (by rw [List.append_assoc, hcq]; exact he1) he2
  have hA : matchFirst tableA (t.ws g) = .err .none (t.ws g) := matchFirst_none tableA h (by rfl)
  have hB : matchFirst tableB (t.ws g) = .err .none (t.ws g) := matchFirst_none tableB h (by rfl)
  have ho : inScriptingOtherToken (t.ws g) = matchCast (t.ws g) := by
    unfold inScriptingOtherToken
    rw [orElse_none hA, orElse_none (yield_none h rfl), orElse_none hB, orElse_ok hcast, hcast]
  rw [hcast] at ho
  have hl := label_none h (by intro c hc; cases hc; exact .inl (by decide))
  have hrun := plain_scripting (nextToken n) n hat hg.all rfl (by rfl)
  have h' : At (t.ws g) ((c!"(" ++ b ++ w ++ b' ++ c!")") ++ rest) := by simpa using h
  have hm2 := Moved.adv' h' (n := byteLen b + byteLen w + byteLen b' + 2) (by
    simp only [byteLen_append]
    have e1 : byteLen c!"(" = 1 := by decide
    have e2 : byteLen c!")" = 1 := by decide
    omega)
  have hall := hmv.trans hm2
  refine ⟨mkSpan (t.ws g).st.srcPos ((t.ws g).st.srcPos + (byteLen b + byteLen w + byteLen b' + 2)), _,
    next_scripting hm.state (hrun.trans ?_), .of_at hall.at', hall.state.trans hm.state, hall.stack.trans hm.stack⟩
  unfold labelOrOther
  rw [bind_ok (setPos_here rfl), bind_ok hl, bind_ok (setPos_here rfl)]
  simp only [ho, he3]
  rfl

/-! ### Behind `->` -/

theorem lexProp_word {w : Text} (hg : Blank g) (hat : At t (g ++ (w ++ rest))) (hm : Mode t true d)
    (hok : isIdentifier w = true) (hb : endsIdentifier rest = true) (n : Nat) :
    StepTo t (n + 1) (.string w) rest false d := by
  obtain ⟨sp, t', h1, -, -, h2, h3, h4⟩ := C31_property_name t .inScripting (List.replicate d .inScripting) g w rest hm.state
    hm.stack hg hok hb (by rw [List.append_assoc]; exact hat.remaining) n
  exact ⟨sp, t', h1, .of_at (.of_remaining h4), h2, h3⟩

theorem lexProp_arrow (hg : Blank g) (hat : At t (g ++ (c!"->" ++ rest))) (hm : Mode t true d) (n : Nat) :
    StepTo t (n + 1) (.k .ObjectOp) rest true d := by
  have hmv := Moved.ws hat hg.all
  have hm2 := Moved.adv' hmv.at' (n := 2) rfl
  have hall := hmv.trans hm2
  have h1 := matchTok_some (ent .ObjectOp) hmv.at' (by rfl) (by decide) (t' := (t.ws g).adv 2) rfl
  have hrun : lookingForPropertyToken t =
      .ok ⟨.k .ObjectOp, mkSpan (t.ws g).st.srcPos ((t.ws g).st.srcPos + 2)⟩ ((t.ws g).adv 2) := by
    unfold lookingForPropertyToken
    refine (bind_ok (whitespace_at hat hg.all rfl)).trans ?_
    exact orElse_ok h1
  refine ⟨mkSpan (t.ws g).st.srcPos ((t.ws g).st.srcPos + 2), _, ?_, .of_at hall.at',
    hall.state.trans hm.state, hall.stack.trans hm.stack⟩
  have hs : t.st.state = .lookingForProperty := hm.state
  unfold nextToken
  simp only [hs, hrun]

/-- Anything that is no name: back to the script. -/
theorem ws_le (t : Tz) (w : Text) : t.st.srcPos ≤ (t.ws w).st.srcPos := by
  show t.st.srcPos ≤ (wsGo w t.st).srcPos
  generalize t.st = s
  induction w generalizing s with
  | nil => exact Nat.le_refl _
  | cons c w ih =>
    unfold wsGo
    split
    · exact Nat.le_of_lt (Nat.lt_of_lt_of_le (Nat.lt_succ_self _) (ih { s with srcPos := s.srcPos + 1 }))
    · split
      · exact Nat.le_of_lt (Nat.lt_of_lt_of_le (Nat.lt_succ_self _) (ih ({ s with srcPos := s.srcPos + 1 } : TState).nextLine))
      · exact Nat.le_refl _

theorem lexProp_other {i : Text} (hg : Blank g) (hat : At t (g ++ i)) (hm : Mode t true d)
    (hb : (i.head?.map isBlank).getD false = false)
    (hl : ∀ c, i.head? = some c → isLabelChar c = false ∨ inRange '0' '9' c = true)
    (ha : startsWithCi i c!"->" = false) (n : Nat) :
    ∃ t', nextToken (n + 1) t = nextToken n t' ∧ At t' i ∧ Mode t' false d ∧ t'.queue = t.queue ∧
      t.st.srcPos ≤ t'.st.srcPos := by
  have hmv := Moved.ws hat hg.all
  let t1 : Tz := t.ws g
  let t2 : Tz := { t1 with st := { t1.st with state := .inScripting, stack := List.replicate d .inScripting } }
  let t3 : Tz := { t2 with st := { t2.st with restart := true } }
  have hpop : popState t1 = .ok () t2 := by
    have e : t1.st.stack = .inScripting :: List.replicate d .inScripting := hmv.stack.trans hm.stack
    unfold popState
    tstep t1.st t1
    rw [e]
    rfl
  have hrun : lookingForPropertyToken t = .err .none t3 := by
    unfold lookingForPropertyToken
    refine (bind_ok (whitespace_at hat hg.all hb)).trans ?_
    refine (orElse_none (matchTok_none _ hmv.at' ha)).trans ?_
    refine (bind_ok (label_none hmv.at' hl)).trans ?_
    refine (bind_ok hpop).trans ?_
    rfl
  refine ⟨{ t3 with st := { t3.st with restart := false } }, ?_, hmv.at', ⟨rfl, rfl⟩, hmv.queue, ws_le t g⟩
  have hs : t.st.state = .lookingForProperty := hm.state
  conv => lhs; unfold nextToken
  simp only [hs, hrun]
  rfl

/-! ### Any lexeme -/

/-- The braces open behind a lexeme. -/
def lexDepth (d : Nat) : Lexeme → Option Nat
  | .sym _ k => symDepth d k
  | _ => some d

theorem braces_lex (d : Nat) (l : Lexeme) (is : List Item) :
    braces d (.lex l :: is) = (lexDepth d l).bind fun d' => braces d' is := by
  cases l with
  | sym w k =>
    cases k <;> first | rfl | (simp only [braces, lexDepth, symDepth]; split <;> rfl)
  | _ => rfl

theorem Lexeme.head {l : Lexeme} (h : l.Ok) : ∃ c r, l.text = c :: r ∧ isBlank c = false ∧
    ((∀ w, l ≠ .word w) → isLabelChar c = false ∨ inRange '0' '9' c = true) := by
  cases l with
  | word w =>
    have hw := Word.of_identifier h.1
    cases w with
    | nil => exact absurd rfl hw.ne
    | cons c w => exact ⟨c, w, rfl, label_not_blank (hw.lab c (by simp)), fun hh => absurd rfl (hh _)⟩
  | var n => exact ⟨'$', n, rfl, by decide, fun _ => .inl (by decide)⟩
  | int lit v =>
    have key : ∃ c r, lit = c :: r ∧ c.isDigit = true := by
      obtain ⟨hl, -⟩ := h
      cases hl with
      | dec _ hne hd _ =>
        cases lit with
        | nil => exact absurd rfl hne
        | cons c r => exact ⟨c, r, rfl, hd c (by simp)⟩
      | oct ds hne hd => exact ⟨'0', ds, rfl, by decide⟩
      | hex ds hne hd => exact ⟨'0', 'x' :: ds, rfl, by decide⟩
      | bin ds hne hd => exact ⟨'0', 'b' :: ds, rfl, by decide⟩
    obtain ⟨c, r, rfl, hc⟩ := key
    have hd := hc
    rw [isDigit_iff] at hc
    refine ⟨c, r, rfl, ?_, fun _ => .inr hc⟩
    cases hb : isBlank c with
    | false => rfl
    | true =>
      simp only [isBlank, Bool.or_eq_true, beq_iff_eq] at hb
      rcases hb with ((rfl | rfl) | rfl) | rfl <;> exact absurd hd (by decide)
  | double ds fs =>
    obtain ⟨hne, hd, -⟩ := h
    cases ds with
    | nil => exact absurd rfl hne
    | cons c r =>
      have hc := hd c (by simp)
      have hd := hc
      rw [isDigit_iff] at hc
      refine ⟨c, _, rfl, ?_, fun _ => .inr hc⟩
      cases hb : isBlank c with
      | false => rfl
      | true =>
        simp only [isBlank, Bool.or_eq_true, beq_iff_eq] at hb
        rcases hb with ((rfl | rfl) | rfl) | rfl <;> exact absurd hd (by decide)
  | str b s => exact ⟨'\'', _, rfl, by decide, fun _ => .inl (by decide)⟩
  | sym w k =>
    obtain ⟨c, r, hc, h1, h2, h3, -⟩ := symbols_head _ h
    exact ⟨c, r, hc, h3, fun _ => .inl h1⟩
  | cast b w b' k => exact ⟨'(', _, rfl, by decide, fun _ => .inl (by decide)⟩

theorem symbols_arrow : ∀ p ∈ symbols, (p.2 = .ObjectOp → p.1 = c!"->") ∧ (c!"->" <+: p.1 → p.2 = .ObjectOp) := by
  decide +kernel

/-- A lexeme in script mode. -/
theorem step_script {d' : Nat} {l : Lexeme} (hg : Blank g) (hat : At t (g ++ (l.text ++ rest))) (hm : Mode t false d)
    (hok : l.Ok) (hb : l.Before false rest) (hd : lexDepth d l = some d') (n : Nat) :
    StepTo t (n + 1) (l.tok false) rest l.isArrow d' := by
  cases l with
  | word w => cases hd; exact step_word hg hat hm hok hb n
  | var w => cases hd; exact step_var hg hat hm hok hb n
  | int lit v => cases hd; exact step_int hg hat hm hok hb n
  | double ds fs =>
    cases hd
    exact step_double hg (by simpa [Lexeme.text] using hat) hm hok hb n
  | str b s => cases hd; exact step_str hg hat hm hok n
  | sym w k =>
    have : (Lexeme.sym w k).isArrow = (k == .ObjectOp) := by cases k <;> rfl
    rw [this]
    exact step_sym hg hat hm hok hb.1 hb.2.1 hb.2.2 hd n
  | cast b w b' k =>
    cases hd
    exact step_cast hg (by simpa [Lexeme.text] using hat) hm hok n

theorem Lexeme.Before.script {l : Lexeme} (h : l.Before true rest) (hw : ∀ w, l ≠ .word w) : l.Before false rest := by
  cases l with
  | word w => exact absurd rfl (hw w)
  | _ => exact h

theorem step_lex {d' : Nat} {prop : Bool} {l : Lexeme} (hg : Blank g) (hat : At t (g ++ (l.text ++ rest)))
    (hm : Mode t prop d) (hok : l.Ok) (hb : l.Before prop rest) (hd : lexDepth d l = some d') (n : Nat) :
    StepTo t (n + 2) (l.tok prop) rest l.isArrow d' := by
  cases prop with
  | false => exact step_script hg hat hm hok hb hd (n + 1)
  | true =>
    by_cases hw : ∃ w, l = .word w
    · obtain ⟨w, rfl⟩ := hw
      cases hd
      exact lexProp_word hg hat hm hok.1 hb.1 (n + 1)
    have hw' : ∀ w, l ≠ .word w := fun w h => hw ⟨w, h⟩
    by_cases har : l.isArrow = true
    · cases l with
      | sym w k =>
        have hk : k = .ObjectOp := by
          unfold Lexeme.isArrow at har
          split at har
          · rename_i heq; cases heq; rfl
          · cases har
        subst hk
        have := (symbols_arrow _ hok).1 rfl
        dsimp only at this
        subst this
        cases hd
        exact lexProp_arrow hg hat hm (n + 1)
      | _ => cases har
    · obtain ⟨c, r, hc, h1, h2⟩ := Lexeme.head hok
      have hno : startsWithCi (l.text ++ rest) c!"->" = false := by
        cases hx : startsWithCi (l.text ++ rest) c!"->" with
        | false => rfl
        | true =>
          exfalso
          obtain ⟨q, hq, _⟩ := startsWithCi_split hx
          have hs : startsWith (l.text ++ rest) c!"->" = true := by rw [hq]; exact startsWith_append c!"->" q
          have hcm : c = '-' := by
            rw [hc] at hq
            exact (List.cons.inj hq).1
          cases l with
          | word w => exact hw ⟨w, rfl⟩
          | var w => rw [Lexeme.text] at hc; cases hc; cases hcm
          | int lit v =>
            rcases h2 nofun with h3 | h3
            · subst hcm
              obtain ⟨hl, -⟩ := hok
              have hc' : lit = '-' :: r := hc
              cases hl with
              | dec _ hne hdd _ => exact absurd (hdd '-' (by rw [hc']; simp)) (by decide)
              | oct ds hne hd => cases hc'
              | hex ds hne hd => cases hc'
              | bin ds hne hd => cases hc'
            · subst hcm; exact absurd h3 (by decide)
          | double ds fs =>
            subst hcm
            obtain ⟨hne, hd, -⟩ := hok
            cases ds with
            | nil => exact absurd rfl hne
            | cons x xs =>
              cases hc
              exact absurd (hd '-' (by simp)) (by decide)
          | str b s => rw [Lexeme.text] at hc; cases hc; cases hcm
          | cast b w b' k => rw [Lexeme.text] at hc; cases hc; cases hcm
          | sym w k =>
            have hnp : ¬ c!"->" <+: w := by
              intro hp
              have := (symbols_arrow _ hok).2 hp
              dsimp only at this
              subst this
              exact har rfl
            have := stops_not (s := c!"->") (by decide) hb.1 hnp
            rw [show (Lexeme.sym w k).text = w from rfl] at hs
            rw [this] at hs
            cases hs
      obtain ⟨t', ht, hat', hm', -⟩ := lexProp_other hg hat hm (by rw [hc]; simpa using h1)
        (by intro x hx; rw [hc] at hx; cases hx; exact h2 hw') hno (n + 1)
      obtain ⟨sp, t'', h3, h4, h5⟩ := step_script (g := []) nofun hat' hm' hok (Lexeme.Before.script hb hw') hd n
      refine ⟨sp, t'', ht.trans ?_, h4, h5⟩
      have : l.tok true = l.tok false := by
        cases l with
        | word w => exact absurd rfl (hw' w)
        | _ => rfl
      rw [this]
      exact h3

/-! ### Sequences of items -/

theorem Ahead.gap {w : Text} (hw : Blank w) (h : Ahead t (w ++ rest)) : Ahead t rest := by
  obtain ⟨b, g, r, h1, hb, hg, hat⟩ := h
  rcases List.append_eq_append_iff.mp h1 with ⟨a, ha, hr⟩ | ⟨a, ha, hr⟩
  · -- b = w ++ a
    refine ⟨a, g, r, hr, ?_, hg, hat⟩
    intro c hc
    exact hb c (by rw [ha]; simp [hc])
  · refine ⟨[], g ++ a, rest, rfl, nofun, ?_, ?_⟩
    · intro c hc
      rcases List.mem_append.mp hc with hc | hc
      · exact hg c hc
      · exact hw c (by rw [ha]; simp [hc])
    · rw [hr] at hat
      rw [List.append_assoc]
      exact hat

theorem Ahead.lex {c : Char} {r : Text} (hc : isBlank c = false) (h : Ahead t (c :: r)) :
    ∃ g, Blank g ∧ At t (g ++ (c :: r)) := by
  obtain ⟨b, g, r', h1, hb, hg, hat⟩ := h
  cases b with
  | nil => exact ⟨g, hg, by rw [h1]; exact hat⟩
  | cons x b =>
    cases h1
    exfalso
    rcases hb c (by simp) with rfl | rfl | rfl | rfl <;> exact absurd hc (by decide)

theorem Ahead.nil (h : Ahead t []) : ∃ g, Blank g ∧ At t g := by
  obtain ⟨b, g, r, h1, hb, hg, hat⟩ := h
  have : r = [] := by cases b with
    | nil => exact h1.symm
    | cons x b => cases h1
  subst this
  exact ⟨g, hg, by rw [List.append_nil] at hat; exact hat⟩

/-- A comment in any of the two modes. -/
theorem step_comment {src : Text} {tok : Token} {prop : Bool} (hg : Blank g) (hat : At t (g ++ (src ++ rest))) (hm : Mode t prop d)
    (hs : ∃ c r, src = c :: r ∧ (c = '/' ∨ c = '#'))
    (hrun : ∀ t g n, Blank g → InScript t (g ++ src ++ rest) →
      ∃ sp t', nextToken (n + 1) t = .ok ⟨tok, sp⟩ t' ∧ InScript t' rest ∧ t'.st.stack = t.st.stack) (n : Nat) :
    StepTo t (n + 2) tok rest false d := by
  cases prop with
  | false =>
    obtain ⟨sp, t', h1, h2⟩ := hrun t g (n + 1) hg (hm.inScript (by rw [List.append_assoc]; exact hat))
    exact ⟨sp, t', h1, .of_at h2.1.at, hm.of h2⟩
  | true =>
    obtain ⟨c, r, rfl, hc⟩ := hs
    obtain ⟨t', ht, hat', hm', -⟩ := lexProp_other hg hat hm
      (by rcases hc with rfl | rfl <;> rfl)
      (by intro x hx; cases hx; rcases hc with rfl | rfl <;> exact .inl (by decide))
      (by rcases hc with rfl | rfl <;> rfl) (n + 1)
    obtain ⟨sp, t'', h1, h2⟩ := hrun t' [] n nofun (hm'.inScript hat')
    exact ⟨sp, t'', ht.trans h1, .of_at h2.1.at, hm'.of h2⟩

theorem lexAll_step {n m : Nat} {ts : TokSpan} {t' : Tz} {acc : List TokSpan} (h : nextToken n t = .ok ts t')
    (he : ts.tok ≠ .k .End) : lexAll n (m + 1) t acc = lexAll n m t' (acc ++ [ts]) := by
  conv => lhs; unfold lexAll
  rw [h]
  simp only [he, if_false]

theorem identifierToken_not_end (w : Text) : identifierToken w ≠ .k .End := by
  unfold identifierToken
  cases h : reservedWords.lookup w with
  | none => nofun
  | some k =>
    have := lookup_mem h
    have hh : ∀ p ∈ reservedWords, p.2 ≠ .End := by decide
    intro heq
    cases heq
    exact hh _ this rfl

theorem Lexeme.tok_not_end {l : Lexeme} (h : l.Ok) (prop : Bool) : l.tok prop ≠ .k .End := by
  cases l with
  | word w =>
    cases prop
    · exact identifierToken_not_end w
    · nofun
  | sym w k =>
    have hh : ∀ p ∈ symbols, p.2 ≠ .End := by decide
    intro heq
    cases heq
    exact hh _ h rfl
  | cast b w b' k =>
    have hh : ∀ p ∈ castWords, p.2 ≠ .End := by decide
    intro heq
    cases heq
    exact hh _ h.2.2 rfl
  | _ => nofun

/-- Ready for the next item: in one of the modes, or the tokens of a string have just been delivered. -/
structure Ready (t : Tz) (prop : Bool) (d : Nat) : Prop where
  inv : Inv t
  pos : 2 ≤ t.st.srcPos
  mode : Mode t prop d ∨ (prop = false ∧ t.st.state = .emitQueue ∧ t.queue = [] ∧ t.st.stack = List.replicate (d + 1) .inScripting)

theorem Inv.next {n : Nat} {x : TokSpan} {t' : Tz} (hi : Inv t) (h : nextToken n t = .ok x t') : Inv t' := by
  have := next_wp n t hi
  unfold Twp at this
  rw [h] at this
  exact this.inv

theorem Inv.post {n : Nat} {x : TokSpan} {t' : Tz} (hi : Inv t) (h : nextToken n t = .ok x t') : NextPost t x t' := by
  have := next_wp n t hi
  unfold Twp at this
  rw [h] at this
  exact this

/-- All tokens but numbers stand behind the two bytes of a short open tag. -/
def Past (ps : List TokSpan) : Prop := ∀ y ∈ ps, isNumber y.tok = false → 2 ≤ y.span.start

theorem Past.append {ps qs : List TokSpan} (h : Past ps) (h' : Past qs) : Past (ps ++ qs) := by
  intro y hy
  rcases List.mem_append.1 hy with hy | hy
  · exact h y hy
  · exact h' y hy

theorem Past.cons {x : TokSpan} {qs : List TokSpan} (h : isNumber x.tok = false → 2 ≤ x.span.start) (h' : Past qs) : Past (x :: qs) := by
  intro y hy
  rcases List.mem_cons.1 hy with rfl | hy
  · exact h
  · exact h' y hy

theorem Past.nil : Past [] := nofun

theorem Behind.past {ps : List TokSpan} (h : Behind ps) : Past ps := fun y hy _ => h y hy

theorem Mode.notEmit {prop : Bool} (h : Mode t prop d) : t.st.state ≠ .emitQueue := by
  rw [h.state]
  cases prop <;> nofun

/-- Behind a string the tokenizer goes back to script mode. -/
theorem Ready.enter {prop : Bool} (h : Ready t prop d) (n : Nat) : ∃ t1 m, nextToken (n + 3) t = nextToken (m + 2) t1 ∧ Mode t1 prop d ∧
    t1.queue = [] ∧ (∀ r, At t r → At t1 r) ∧ Inv t1 ∧ t1.st.srcPos = t.st.srcPos := by
  rcases h.mode with hm | ⟨rfl, hs, hq, hk⟩
  · exact ⟨t, n + 1, rfl, hm, h.inv.queue hm.notEmit, fun _ h => h, h.inv, rfl⟩
  · let t1 : Tz := { t with st := { t.st with state := .inScripting, stack := List.replicate d .inScripting, restart := true } }
    have hi1 : Inv t1 := by
      refine ⟨?_, ?_, ?_, fun _ => hq, ?_, .inr (.inr (Nat.le_trans (by decide) h.pos)), fun _ => Nat.le_trans (by decide) h.pos⟩
      · rcases h.inv.lines with hl | ⟨⟨s, w, r, h1, h2, h3, h4, h5⟩, -⟩
        · exact .inl ⟨hl.pos, hl.lines, hl.fin⟩
        · exact .inr ⟨⟨s, w, r, h1, h2, h3, h4, h5⟩, .inl rfl⟩
      · intro s hs
        exact h.inv.stk s (by rw [hk, List.replicate_succ]; exact List.mem_cons_of_mem _ hs)
      · rintro (h | h) <;> cases h
      · intro y hy; exact h.inv.qok y hy
    refine ⟨t1, n, ?_, ⟨rfl, rfl⟩, hq, fun _ h => h, hi1, rfl⟩
    have hpop : popState t = .ok () { t with st := { t.st with state := .inScripting, stack := List.replicate d .inScripting } } := by
      unfold popState
      tstep t.st t
      rw [hk]
      rfl
    conv => lhs; unfold nextToken
    simp only [hs, hq]
    exact bind_ok hpop

theorem Ready.step {prop prop' : Bool} {d' n : Nat} {tok : Token} {rest r : Text} (h : Ready t prop d) (ha : At t r)
    (hs : ∀ t1 m, At t1 r → Mode t1 prop d → StepTo t1 (m + 2) tok rest prop' d') :
    ∃ sp t', nextToken (n + 3) t = .ok ⟨tok, sp⟩ t' ∧ Ahead t' rest ∧ Ready t' prop' d' ∧ (isNumber tok = false → 2 ≤ sp.start) := by
  obtain ⟨t1, m, e, hm, -, hat, hi1, hp1⟩ := h.enter n
  obtain ⟨sp, t', h1, h2, h3⟩ := hs t1 m (hat r ha) hm
  have hpost := hi1.post h1
  have hpos := h.pos
  refine ⟨sp, t', e.trans h1, h2, ⟨h.inv.next (e.trans h1), Nat.le_trans (by omega) hpost.le, .inl h3⟩, fun hn => ?_⟩
  have := (hpost.ord hm.notEmit hn).1
  show 2 ≤ sp.start
  dsimp only at this
  omega

/-- The first token of a string. -/
theorem step_dq {its : List DqItem} {prop : Bool} (hg : Blank g) (hat : At t (g ++ (c!"\"" ++ dqSrc its ++ c!"\"" ++ rest)))
    (hm : Mode t prop d) (hq : t.queue = []) (hp2 : 2 ≤ t.st.srcPos) (hok : DqOk its) (n : Nat) :
    ∃ sp q t', nextToken (n + 2) t = .ok ⟨.k .DoubleQuote, sp⟩ t' ∧ At t' rest ∧ t'.st.state = .emitQueue ∧
      t'.st.stack = List.replicate (d + 1) .inScripting ∧ t'.queue = q ∧ q.map TokSpan.tok = dqToks [] its ++ [.k .DoubleQuote] ∧
      Behind q := by
  have hat1 : At t (g ++ ('"' :: (dqSrc its ++ '"' :: rest))) := by simpa using hat
  have main : ∀ (t : Tz) (g : Text) (n : Nat), Blank g → At t (g ++ ('"' :: (dqSrc its ++ '"' :: rest))) → Mode t false d → t.queue = [] → 2 ≤ t.st.srcPos →
      ∃ sp q t', nextToken (n + 1) t = .ok ⟨.k .DoubleQuote, sp⟩ t' ∧ At t' rest ∧ t'.st.state = .emitQueue ∧
      t'.st.stack = List.replicate (d + 1) .inScripting ∧ t'.queue = q ∧ q.map TokSpan.tok = dqToks [] its ++ [.k .DoubleQuote] ∧
      Behind q := by
    intro t g n hg hat hm hq hp2
    have hmv := Moved.ws hat hg.all
    have h := hmv.at'
    obtain ⟨sp, q, t', e1, e2, e3⟩ := dqString_some (nextToken n) n hok h (hmv.queue.trans hq)
      (Nat.le_trans hp2 (ws_le t g))
    have hall := hmv.trans e2
    refine ⟨sp, q, { t' with queue := q, st := t'.st.push .emitQueue }, next_scripting hm.state ((scripting_start _ _ hat hg.all rfl (by simp)).trans ?_), hall.at', rfl, ?_, rfl, e3⟩
    · rw [orElse_none (hereNowDoc_none _ _ h rfl rfl), orElse_none (show bnum _ = _ from prefixedNum_none _ _ _ h rfl),
        orElse_none (show hnum _ = _ from prefixedNum_none _ _ _ h rfl),
        orElse_none (onum_none h (by simp) (by intro c hc; cases hc; decide) rfl), orElse_ok e1]
    · show t'.st.state :: t'.st.stack = _
      rw [hall.state.trans hm.state, hall.stack.trans hm.stack]
      rfl
  cases prop with
  | false => exact main t g (n + 1) hg hat1 hm hq hp2
  | true =>
    obtain ⟨t', ht, hat', hm', hq', hp'⟩ := lexProp_other hg hat1 hm rfl (by intro c hc; cases hc; exact .inl (by decide)) rfl (n + 1)
    obtain ⟨sp, q, t'', h1, h2⟩ := main t' [] n nofun hat' hm' (hq'.trans hq) (Nat.le_trans hp2 hp')
    exact ⟨sp, q, t'', ht.trans h1, h2⟩

theorem lexAll_queue {n : Nat} (q : List TokSpan) (hne : ∀ x ∈ q, x.tok ≠ .k .End) : ∀ (t : Tz), Inv t → t.st.state = .emitQueue → t.queue = q →
    ∀ acc m, lexAll (n + 1) (m + q.length) t acc = lexAll (n + 1) m { t with queue := [] } (acc ++ q) := by
  induction q with
  | nil =>
    intro t _ _ hq acc m
    rw [List.append_nil, List.length_nil, Nat.add_zero]
    congr 1
    cases t
    cases hq
    rfl
  | cons x q ih =>
    intro t hi hs hq acc m
    have hx : nextToken (n + 1) t = .ok x { t with queue := q } := by
      unfold nextToken
      simp only [hs, hq]
    rw [List.length_cons, ← Nat.add_assoc, lexAll_step hx (hne x (by simp)),
      ih (fun y hy => hne y (by simp [hy])) { t with queue := q } (hi.next hx) hs rfl]
    simp

theorem textTok_not_end (s : Text) : ∀ x ∈ textTok s, x ≠ .k .End := by
  unfold textTok
  split
  · nofun
  · intro x hx; rw [List.mem_singleton.1 hx]; nofun

theorem dqToks_not_end (its : List DqItem) : ∀ s, ∀ x ∈ dqToks s its, x ≠ .k .End := by
  induction its with
  | nil => exact textTok_not_end
  | cons it its ih =>
    intro s x hx
    cases it with
    | var n =>
      simp only [dqToks, List.mem_append, List.mem_cons] at hx
      rcases hx with hx | rfl | hx
      · exact textTok_not_end s x hx
      · nofun
      · exact ih _ x hx
    | prop n p =>
      simp only [dqToks, List.mem_append, List.mem_cons] at hx
      rcases hx with hx | rfl | rfl | rfl | hx
      · exact textTok_not_end s x hx
      · nofun
      · nofun
      · nofun
      · exact ih _ x hx
    | _ => exact ih _ x hx

theorem run_items (is : List Item) (tail : Text) (n : Nat) (d' : Nat) : ∀ (t : Tz) (prop : Bool) (d : Nat),
    Ahead t (render is ++ tail) → Ready t prop d → Apart prop is tail → braces d is = some d' →
    ∀ acc, ∃ out t', out.map TokSpan.tok = toks prop is ∧
      (∀ m, lexAll (n + 3) (m + out.length) t acc = lexAll (n + 3) m t' (acc ++ out)) ∧
      Ahead t' tail ∧ Ready t' (endsProp prop is) d' ∧ Past out := by
  induction is with
  | nil =>
    intro t prop d ha hm _ hb acc
    cases hb
    exact ⟨[], t, rfl, fun m => by simp, ha, hm, .nil⟩
  | cons i is ih =>
    intro t prop d ha hm hap hb acc
    have hone : ∀ {tok : Token} {prop' : Bool} {d1 : Nat} {r : Text}, At t r →
        (∀ t1 m, At t1 r → Mode t1 prop d → StepTo t1 (m + 2) tok (render is ++ tail) prop' d1) → tok ≠ .k .End →
        Apart prop' is tail → braces d1 is = some d' → toks prop (i :: is) = tok :: toks prop' is →
        endsProp prop (i :: is) = endsProp prop' is →
        ∃ out t', out.map TokSpan.tok = toks prop (i :: is) ∧
          (∀ m, lexAll (n + 3) (m + out.length) t acc = lexAll (n + 3) m t' (acc ++ out)) ∧
          Ahead t' tail ∧ Ready t' (endsProp prop (i :: is)) d' ∧ Past out := by
      intro tok prop' d1 r hat hs hne hap' hb' ht he
      obtain ⟨sp, t1, h1, h2, h3, h4⟩ := hm.step (n := n) hat hs
      obtain ⟨out, t', g1, g2, g3, g4, g5⟩ := ih t1 prop' d1 h2 h3 hap' hb' (acc ++ [⟨tok, sp⟩])
      refine ⟨⟨tok, sp⟩ :: out, t', by rw [ht]; simp [g1], ?_, g3, by rw [he]; exact g4, .cons h4 g5⟩
      intro m
      rw [List.length_cons, ← Nat.add_assoc, lexAll_step h1 hne, g2]
      simp
    cases i with
    | gap w =>
      obtain ⟨h1, h2⟩ := hap
      have ha' : Ahead t (w ++ (render is ++ tail)) := by rw [← List.append_assoc]; exact ha
      exact ih t prop d (ha'.gap h1) hm h2 hb acc
    | dq its =>
      obtain ⟨h1, h2⟩ := hap
      have ha' : Ahead t ((c!"\"" ++ dqSrc its ++ c!"\"") ++ (render is ++ tail)) := by rw [← List.append_assoc]; exact ha
      obtain ⟨g, hg, hat⟩ := Ahead.lex (c := '"') (by decide) ha'
      obtain ⟨t1, m, e, hm1, hq1, hat1, hi1, hp1⟩ := hm.enter n
      have hpos := hm.pos
      obtain ⟨sp, q, t2, f1, f2, f3, f4, f5, f6, f7⟩ := step_dq (rest := render is ++ tail) hg (hat1 _ hat) hm1 hq1 (by omega) h1 m
      have hpost := hi1.post f1
      have hsp : 2 ≤ sp.start := Nat.le_trans (by omega) (hpost.ord hm1.notEmit rfl).1
      have hn := e.trans f1
      have hi2 := hm.inv.next hn
      have hl : LG { t2 with queue := [] } ∨ (Gap { t2 with queue := [] } ∧ (t2.st.state = .inScripting ∨ t2.st.state = .emitQueue)) := by
        rcases hi2.lines with h | ⟨⟨s, w, r, h1, h2, h3, h4, h5⟩, hs⟩
        · exact .inl ⟨h.pos, h.lines, h.fin⟩
        · exact .inr ⟨⟨s, w, r, h1, h2, h3, h4, h5⟩, hs⟩
      have hi3 : Inv { t2 with queue := [] } :=
        ⟨hl, hi2.stk, hi2.head, fun _ => rfl, nofun, hi2.one, hi2.one'⟩
      obtain ⟨out, t', g1, g2, g3, g4, g5⟩ := ih { t2 with queue := [] } false d (.of_at f2) ⟨hi3, Nat.le_trans (by omega) hpost.le, .inr ⟨rfl, f3, rfl, f4⟩⟩ h2 hb
        (acc ++ [⟨.k .DoubleQuote, sp⟩] ++ q)
      refine ⟨⟨.k .DoubleQuote, sp⟩ :: (q ++ out), t', by simp [toks, f6, g1], ?_, g3, g4,
        .cons (fun _ => hsp) (f7.past.append g5)⟩
      intro m
      have hq : ∀ x ∈ q, x.tok ≠ .k .End := by
        intro x hx
        have : x.tok ∈ q.map TokSpan.tok := List.mem_map_of_mem hx
        rw [f6] at this
        rcases List.mem_append.1 this with h | h
        · exact dqToks_not_end its [] _ h
        · rw [List.mem_singleton.1 h]; nofun
      have hlen : m + (⟨.k .DoubleQuote, sp⟩ :: (q ++ out) : List TokSpan).length = m + out.length + q.length + 1 := by
        simp only [List.length_cons, List.length_append]; omega
      rw [hlen, lexAll_step hn nofun, lexAll_queue q hq t2 hi2 f3 f5, g2]
      simp
    | lex l =>
      obtain ⟨h1, h2, h3⟩ := hap
      rw [braces_lex] at hb
      cases hd : lexDepth d l with
      | none => rw [hd] at hb; cases hb
      | some d1 =>
        rw [hd] at hb
        have ha' : Ahead t (l.text ++ (render is ++ tail)) := by rw [← List.append_assoc]; exact ha
        obtain ⟨c, r, hc, hcb, -⟩ := Lexeme.head h1
        obtain ⟨g, hg, hat⟩ := Ahead.lex (r := r ++ (render is ++ tail)) hcb (by rw [hc] at ha'; exact ha')
        have hat' : At t (g ++ (l.text ++ (render is ++ tail))) := by rw [hc]; exact hat
        exact hone hat' (fun t1 m hat1 hm1 => step_lex hg hat1 hm1 h1 h2 hd m) (Lexeme.tok_not_end h1 prop) h3 hb rfl rfl
    | block body =>
      obtain ⟨h1, h2, h3⟩ := hap
      have ha' : Ahead t ((c!"/*" ++ body ++ c!"*/") ++ (render is ++ tail)) := by rw [← List.append_assoc]; exact ha
      obtain ⟨g, hg, hat⟩ := Ahead.lex (c := '/') (by decide) ha'
      refine hone (tok := .comment _) hat (fun t1 m hat1 hm1 => step_comment hg hat1 hm1 ⟨'/', _, rfl, .inl rfl⟩ ?_ m) nofun h3 hb rfl rfl
      intro t g n hg ht
      obtain ⟨sp, t', k1, -, -, k2⟩ := C16_block_partial t g body _ hg h1 h2 ht n
      exact ⟨sp, t', k1, k2⟩
    | line opener body =>
      obtain ⟨h1, h2, h3, h4⟩ := hap
      have ha' : Ahead t ((opener ++ body) ++ (render is ++ tail)) := by rw [← List.append_assoc]; exact ha
      have hop : ∃ c r, opener ++ body = c :: r ∧ (c = '/' ∨ c = '#') := by
        rcases h1 with rfl | rfl
        · exact ⟨'#', _, rfl, .inr rfl⟩
        · exact ⟨'/', _, rfl, .inl rfl⟩
      obtain ⟨c, r, hcr, hc⟩ := hop
      obtain ⟨g, hg, hat⟩ := Ahead.lex (t := t) (c := c) (r := r ++ (render is ++ tail))
        (by rcases hc with rfl | rfl <;> decide) (by rw [hcr] at ha'; exact ha')
      have hat' : At t (g ++ ((opener ++ body) ++ (render is ++ tail))) := by rw [hcr]; exact hat
      refine hone (tok := .comment _) hat' (fun t1 m hat1 hm1 => step_comment hg hat1 hm1 ⟨c, r, hcr, hc⟩ ?_ m) nofun h4 hb rfl rfl
      intro t g n hg ht
      obtain ⟨sp, t', k1, -, -, k2⟩ := C16_line t g opener body _ hg h1 h2 h3 ht n
      exact ⟨sp, t', k1, k2⟩

/-! ### From the open tag to the end -/

/-- The end of the source in script mode. -/
theorem end_script (hg : Blank g) (hat : At t g) (hm : Mode t false d) (n : Nat) :
    ∃ sp t', nextToken (n + 1) t = .ok ⟨.k .End, sp⟩ t' :=
  ⟨_, _, next_scripting hm.state (scripting_end _ _ hat hg.all)⟩

theorem end_items {prop : Bool} (ha : Ahead t []) (hm : Ready t prop d) (n : Nat) :
    ∃ sp t', nextToken (n + 3) t = .ok ⟨.k .End, sp⟩ t' := by
  obtain ⟨g, hg, hat⟩ := ha.nil
  obtain ⟨t1, n, e, hm, -, hat1, -⟩ := hm.enter n
  rw [e]
  replace hat := hat1 _ hat
  cases prop with
  | false => exact end_script hg hat hm (n + 1)
  | true =>
    obtain ⟨t', ht, hat', hm', -⟩ := lexProp_other (i := []) hg (by rw [List.append_nil]; exact hat) hm rfl nofun rfl (n + 1)
    obtain ⟨sp, t'', h⟩ := end_script (g := []) nofun hat' hm' n
    exact ⟨sp, t'', ht.trans h⟩

/-- The close tag at the end of the source. -/
theorem close_script (hg : Blank g) (hat : At t (g ++ c!"?>")) (hm : Mode t false d) (n : Nat) :
    ∃ sp t', nextToken (n + 1) t = .ok ⟨.k .CloseTag, sp⟩ t' ∧ At t' [] ∧ t'.st.state = .initial := by
  have hmv := Moved.ws hat hg.all
  have hat2 : At (t.ws g) (c!"?>" ++ []) := hmv.at'
  have hrun := plain_scripting (nextToken n) n (i := c!"?>") hat hg.all rfl rfl
  obtain ⟨dc, hd⟩ := op_table (e := ⟨Kw.repr .CloseTag, .CloseTag, .set .initial⟩)
    (t' := { (t.ws g).adv 2 with st := { ((t.ws g).adv 2).st with state := .initial } }) hat2 rfl
    (by intro c hc; cases hc; decide) (by simp) (by intro c hc; cases hc; decide) rfl nofun (by rfl) (by rfl)
  exact ⟨_, _, next_scripting hm.state (hrun.trans hd), At.adv hat2, rfl⟩

theorem close_items {prop : Bool} (ha : Ahead t c!"?>") (hm : Ready t prop d) (n : Nat) :
    ∃ sp t', nextToken (n + 3) t = .ok ⟨.k .CloseTag, sp⟩ t' ∧ (At t' [] ∧ t'.st.state = .initial) ∧ 2 ≤ sp.start := by
  obtain ⟨g, hg, hat⟩ := ha.lex (by decide)
  have hpos := hm.pos
  obtain ⟨t1, n, e, hm, -, hat1, hi1, hp1⟩ := hm.enter n
  rw [e]
  replace hat := hat1 _ hat
  have fin : ∀ {sp t'}, nextToken (n + 2) t1 = .ok ⟨.k .CloseTag, sp⟩ t' → 2 ≤ sp.start := by
    intro sp t' h
    exact Nat.le_trans (by omega) ((hi1.post h).ord hm.notEmit rfl).1
  cases prop with
  | false =>
    obtain ⟨sp, t', h, h'⟩ := close_script hg hat hm (n + 1)
    exact ⟨sp, t', h, h', fin h⟩
  | true =>
    obtain ⟨t', ht, hat', hm', -⟩ := lexProp_other hg hat hm rfl (by intro c hc; cases hc; exact .inl (by decide)) rfl (n + 1)
    obtain ⟨sp, t'', h, h'⟩ := close_script (g := []) nofun hat' hm' n
    exact ⟨sp, t'', ht.trans h, h', fin (ht.trans h)⟩

theorem initial_end (hat : At t []) (hs : t.st.state = .initial) (n : Nat) :
    ∃ sp t', nextToken (n + 1) t = .ok ⟨.k .End, sp⟩ t' := by
  refine ⟨mkSpan (byteLen t.code) (byteLen t.code), { t with st := { t.st with state := .done } }, next_initial hs ?_⟩
  unfold initialToken
  refine (bind_ok (input_at hat)).trans ?_
  rfl

theorem open_tag (src : Text) (n : Nat) :
    ∃ sp t', nextToken (n + 1) (Tz.new (c!"<?php" ++ src)) = .ok ⟨.k .OpenTag, sp⟩ t' ∧ At t' src ∧ Mode t' false 0 ∧
      2 ≤ t'.st.srcPos := by
  have hat : At (Tz.new (c!"<?php" ++ src)) (c!"<?php" ++ src) := dropBytes_zero _
  have hm := matchFirst_some [⟨Kw.repr .OpenTagWithEcho, .OpenTagWithEcho, .set .inScripting⟩,
      ⟨Kw.repr .OpenTag, .OpenTag, .set .inScripting⟩, ⟨c!"<?", .OpenTag, .set .inScripting⟩] (by decide) hat
      (e := ⟨Kw.repr .OpenTag, .OpenTag, .set .inScripting⟩)
      (t' := { (Tz.new (c!"<?php" ++ src)).adv 5 with st := { ((Tz.new (c!"<?php" ++ src)).adv 5).st with state := .inScripting } })
      (by rfl) (by rfl)
  refine ⟨mkSpan 0 5, { (Tz.new (c!"<?php" ++ src)).adv 5 with st :=
    { ((Tz.new (c!"<?php" ++ src)).adv 5).st with state := .inScripting } }, next_initial rfl ?_, At.adv hat, ⟨rfl, rfl⟩, by show 2 ≤ 0 + 5; decide⟩
  unfold initialToken
  refine (bind_ok (input_at hat)).trans ?_
  rw [if_neg (by simp)]
  exact orElse_ok hm

/-- The tokens of a script given by its items, optionally closed by `?>`. -/
theorem items_tokens (is : List Item) (d : Nat) (tail : Text) (htail : tail = [] ∨ tail = c!"?>") (h : Apart false is tail)
    (hb : braces 0 is = some d) : ∃ n ts, spansOf n (c!"<?php" ++ render is ++ tail) = some ts ∧
      ts.map TokSpan.tok = .k .OpenTag :: (toks false is ++ if tail = [] then [] else [.k .CloseTag]) ∧ Past ts.tail := by
  obtain ⟨sp, t1, h1, h2, h3, hp⟩ := open_tag (render is ++ tail) ((toks false is).length + 4)
  have hi := inv_new (c!"<?php" ++ (render is ++ tail))
  obtain ⟨out, t2, g1, g2, g3, g4, g5⟩ := run_items is tail ((toks false is).length + 2) d t1 false 0 (.of_at h2) ⟨hi.next h1, hp, .inl h3⟩ h hb
    [⟨.k .OpenTag, sp⟩]
  have hlen : out.length = (toks false is).length := by rw [← g1, List.length_map]
  have hl : lexAll ((toks false is).length + 5) ((toks false is).length + 5) (Tz.new (c!"<?php" ++ (render is ++ tail))) [] =
      lexAll ((toks false is).length + 5) 4 t2 ([⟨.k .OpenTag, sp⟩] ++ out) := by
    rw [lexAll_step (ts := ⟨.k .OpenTag, sp⟩) h1 nofun]
    have := g2 4
    rw [show 4 + out.length = (toks false is).length + 4 by omega] at this
    exact this
  unfold spansOf
  rcases htail with rfl | rfl
  · obtain ⟨sp2, t3, he⟩ := end_items g3 g4 ((toks false is).length + 2)
    refine ⟨(toks false is).length + 5, [⟨.k .OpenTag, sp⟩] ++ out, ?_, by simp [g1], by simpa using g5⟩
    rw [List.append_assoc, hl]
    unfold lexAll
    rw [he]
    rfl
  · obtain ⟨sp2, t3, he, ⟨hat3, hs3⟩, hsp2⟩ := close_items g3 g4 ((toks false is).length + 2)
    obtain ⟨sp4, t4, he4⟩ := initial_end hat3 hs3 ((toks false is).length + 4)
    refine ⟨(toks false is).length + 5, [⟨.k .OpenTag, sp⟩] ++ out ++ [⟨.k .CloseTag, sp2⟩], ?_, by simp [g1],
      by simpa using g5.append (.cons (x := ⟨.k .CloseTag, sp2⟩) (fun _ => hsp2) .nil)⟩
    rw [List.append_assoc, hl, lexAll_step he nofun]
    unfold lexAll
    rw [he4]
    rfl

end Pico
