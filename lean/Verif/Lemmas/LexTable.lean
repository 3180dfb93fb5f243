import Verif.Lemmas.LexFail
/-!
# Keywords, operators and identifiers

`otherFind i` is the keyword or operator found at the head of `i`, `labelOrOther_*` what the tokenizer delivers.
-/
namespace Pico
open T

/-- The effect of an action on the state; `none` is the panic of an empty stack. -/
def Act.eff (a : Act) (t : Tz) : Option Tz :=
  match a with
  | .keep => some t
  | .set s => some { t with st := { t.st with state := s } }
  | .push s => some { t with st := t.st.push s }
  | .pop =>
    match t.st.stack with
    | x :: xs => some { t with st := { t.st with state := x, stack := xs } }
    | [] => none

theorem Act.run_eff {a : Act} {t t' : Tz} (h : a.eff t = some t') : a.run t = .ok () t' := by
  cases a with
  | keep => cases h; rfl
  | set s => cases h; rfl
  | push s => cases h; rfl
  | pop =>
    simp only [Act.eff] at h
    show popState t = _
    unfold popState
    tstep (t.st) t
    cases hs : t.st.stack with
    | nil => rw [hs] at h; cases h
    | cons x xs => rw [hs] at h; cases h; rfl

variable {t : Tz} {i : Text}

theorem matchTok_none (e : Entry) (h : At t i) (h1 : startsWithCi i e.text = false) :
    matchTok e t = .err .none t := by
  unfold matchTok
  rw [bind_ok (input_at h), h1]
  rfl

theorem startsWithCi_split {i s : Text} (h : startsWithCi i s = true) :
    ∃ r, i = s.map lowerAscii ++ r ∧ (i.take s.length = s.map lowerAscii) := by
  simp only [startsWithCi, beq_iff_eq] at h
  exact ⟨i.drop s.length, by rw [← h, List.take_append_drop], h⟩

theorem matchTok_some (e : Entry) (h : At t i) (h1 : startsWithCi i e.text = true)
    (hl : byteLen e.text = byteLen (e.text.map lowerAscii)) {t' : Tz}
    (ha : e.act.eff (t.adv (byteLen e.text)) = some t') :
    matchTok e t = .ok ⟨.k e.kw, mkSpan t.st.srcPos (t.st.srcPos + byteLen e.text)⟩ t' := by
  unfold matchTok
  rw [bind_ok (input_at h), h1]
  simp only [if_true]
  refine (bind_ok inputPos_at).trans ?_
  obtain ⟨r, hr, _⟩ := startsWithCi_split h1
  rw [hr] at h
  refine (bind_ok (advanceBytes_at' h hl)).trans ?_
  refine (bind_ok inputPos_at).trans ?_
  refine (bind_ok (Act.run_eff ha)).trans ?_
  rfl

/-- The first entry that matches. -/
def findEntry (es : List Entry) (i : Text) : Option Entry := es.find? fun e => startsWithCi i e.text

theorem matchFirst_none (es : List Entry) (h : At t i) (h1 : findEntry es i = none) :
    matchFirst es t = .err .none t := by
  induction es with
  | nil => rfl
  | cons e es ih =>
    simp only [findEntry, List.find?_cons] at h1
    cases he : startsWithCi i e.text with
    | true => rw [he] at h1; cases h1
    | false =>
      rw [he] at h1
      show (matchTok e <||> matchFirst es) t = _
      rw [orElse_none (matchTok_none e h he)]
      exact ih h1

theorem matchFirst_some (es : List Entry) (hes : ∀ e ∈ es, byteLen e.text = byteLen (e.text.map lowerAscii))
    (h : At t i) {e : Entry} (h1 : findEntry es i = some e) {t' : Tz}
    (ha : e.act.eff (t.adv (byteLen e.text)) = some t') :
    matchFirst es t = .ok ⟨.k e.kw, mkSpan t.st.srcPos (t.st.srcPos + byteLen e.text)⟩ t' := by
  induction es with
  | nil => cases h1
  | cons d es ih =>
    simp only [findEntry, List.find?_cons] at h1
    show (matchTok d <||> matchFirst es) t = _
    cases he : startsWithCi i d.text with
    | true =>
      rw [he] at h1
      cases h1
      exact orElse_ok (matchTok_some e h he (hes e (by simp)) ha)
    | false =>
      rw [he] at h1
      rw [orElse_none (matchTok_none d h he)]
      exact ih (fun e he => hes e (by simp [he])) h1

theorem byteLen_eq_length_of_ascii {es : List Entry} (h : es.all (fun e => ascii e.text) = true) :
    ∀ e ∈ es, byteLen e.text = byteLen (e.text.map lowerAscii) := by
  intro e he
  have h1 : ascii e.text = true := by
    rw [List.all_eq_true] at h; exact h e he
  have h2 : ascii (e.text.map lowerAscii) = true := by
    simp only [ascii, List.all_map, List.all_eq_true, Function.comp_apply, decide_eq_true_eq] at h1 ⊢
    intro c hc
    have := h1 c hc
    unfold lowerAscii
    split
    · rename_i hr
      simp only [inRange, Bool.and_eq_true, decide_eq_true_eq] at hr
      have h3 : c.toNat ≤ 90 := hr.2
      have hv : (c.toNat + 32).isValidChar := by
        left; omega
      rw [toNat_ofNat_valid hv]
      omega
    · exact this
  rw [byteLen_ascii h1, byteLen_ascii h2, List.length_map]

theorem yield_none (h : At t i) (h1 : startsWithCi i c!"yield" = false) : matchYield t = .err .none t := by
  unfold matchYield
  rw [bind_ok (input_at h), h1]
  rfl

/-! ### Casts -/

def isGap (c : Char) : Bool := c == ' ' || c == '\t'

theorem wsOnlyGo_append (w i : Text) (hw : w.all isGap = true) (hi : (i.head?.map isGap).getD false = false)
    (s : TState) : wsOnlyGo (w ++ i) s = { s with srcPos := s.srcPos + w.length } := by
  induction w generalizing s with
  | nil =>
    cases i with
    | nil => rfl
    | cons c i =>
      simp only [List.head?_cons, Option.map_some, Option.getD_some, isGap, Bool.or_eq_false_iff] at hi
      simp [wsOnlyGo, hi]
  | cons c w ih =>
    simp only [List.all_cons, Bool.and_eq_true] at hw
    simp only [List.cons_append, wsOnlyGo]
    rw [if_pos (by simpa [isGap] using hw.1), ih hw.2]
    simp only [List.length_cons]
    congr 1
    omega

theorem gap_byteLen {w : Text} (hw : w.all isGap = true) : byteLen w = w.length := by
  apply byteLen_ascii
  simp only [ascii, List.all_eq_true, decide_eq_true_eq] at hw ⊢
  intro c hc
  have := hw c hc
  simp only [isGap, Bool.or_eq_true, beq_iff_eq] at this
  rcases this with rfl | rfl <;> decide

theorem gap_split (i : Text) : ∃ w r, i = w ++ r ∧ w.all isGap = true ∧ (r.head?.map isGap).getD false = false := by
  induction i with
  | nil => exact ⟨[], [], rfl, rfl, rfl⟩
  | cons c i ih =>
    cases hc : isGap c with
    | false => exact ⟨[], c :: i, rfl, rfl, by simp [hc]⟩
    | true =>
      obtain ⟨w, r, rfl, h1, h2⟩ := ih
      exact ⟨c :: w, r, rfl, by simp [hc, h1], h2⟩

theorem whitespaceOnly_at {w r : Text} (h : At t (w ++ r)) (hw : w.all isGap = true)
    (hi : (r.head?.map isGap).getD false = false) : whitespaceOnly t = .ok () (t.adv (byteLen w)) := by
  unfold whitespaceOnly
  rw [bind_ok (input_at h)]
  show TR.ok () { t with st := wsOnlyGo (w ++ r) t.st } = _
  rw [wsOnlyGo_append w r hw hi, gap_byteLen hw]
  rfl

theorem cast_none_paren (h : At t i) (h1 : startsWith i c!"(" = false) : matchCast t = .err .none t := by
  unfold matchCast
  rw [bind_ok (input_at h), h1]
  rfl

/-- What follows an opening parenthesis is not a type name and a closing parenthesis. -/
def noCast (r : Text) : Bool :=
  match findEntry castTable (r.dropWhile isGap) with
  | none => true
  | some e => !startsWith (((r.dropWhile isGap).drop e.text.length).dropWhile isGap) c!")"

theorem dropWhile_gap {w r : Text} (hw : w.all isGap = true) (hr : (r.head?.map isGap).getD false = false) :
    (w ++ r).dropWhile isGap = r := by
  induction w with
  | nil =>
    cases r with
    | nil => rfl
    | cons c r =>
      simp only [List.head?_cons, Option.map_some, Option.getD_some] at hr
      simp [hr]
  | cons c w ih =>
    simp only [List.all_cons, Bool.and_eq_true] at hw
    simp [hw.1]
    exact ih hw.2

theorem castTable_len : ∀ e ∈ castTable, byteLen e.text = byteLen (e.text.map lowerAscii) :=
  byteLen_eq_length_of_ascii (by decide)

theorem castTable_keep {e : Entry} (h : e ∈ castTable) : e.act = .keep := by
  have : ∀ e ∈ castTable, e.act = .keep := by decide
  exact this e h

theorem castTable_ascii {e : Entry} (h : e ∈ castTable) : byteLen e.text = e.text.length := by
  have : ∀ e ∈ castTable, ascii e.text = true := by decide
  exact byteLen_ascii (this e h)

theorem find_entry_split {es : List Entry} {e : Entry} (hf : findEntry es i = some e) :
    i = e.text.map lowerAscii ++ i.drop e.text.length := by
  have h := List.find?_some hf
  obtain ⟨r, hr, ht⟩ := startsWithCi_split h
  conv => lhs; rw [← List.take_append_drop e.text.length i, ht]

theorem cast_none {r : Text} (h : At t ('(' :: r)) (h1 : noCast r = true) : matchCast t = .err .none t := by
  unfold matchCast
  rw [bind_ok (input_at h)]
  simp only [startsWith, beq_self_eq_true, Bool.and_true, if_true]
  refine (bind_ok inputPos_at).trans ?_
  have h2 : At t (c!"(" ++ r) := h
  refine (bind_ok (advanceBytes_at' h2 rfl)).trans ?_
  have h3 : At (t.adv 1) r := At.adv h2
  obtain ⟨w, r', rfl, hw, hr⟩ := gap_split r
  refine (bind_ok (whitespaceOnly_at h3 hw hr)).trans ?_
  have h4 : At ((t.adv 1).adv (byteLen w)) r' := At.adv h3
  rw [Tz.adv_adv] at h4 ⊢
  unfold noCast at h1
  rw [dropWhile_gap hw hr] at h1
  cases hf : findEntry castTable r' with
  | none =>
    refine (bind_ok (a := none) (t' := t.adv (byteLen c!"(" + byteLen w))
      (by rw [matchFirst_none castTable h4 hf]; rfl)).trans ?_
    dsimp only
    rw [bind_ok (setPos_back rfl)]
    rfl
  | some e =>
    rw [hf] at h1
    dsimp only at h1
    have he : e ∈ castTable := List.mem_of_find?_eq_some hf
    have hm := matchFirst_some castTable castTable_len h4 hf (by rw [castTable_keep he]; rfl)
    refine (bind_ok (a := some _) (t' := _) (by rw [hm])).trans ?_
    dsimp only
    have hl := castTable_len e he
    have hsp := find_entry_split hf
    generalize r'.drop e.text.length = r2 at h1 hsp
    subst hsp
    have h5 := At.adv h4
    rw [← hl, Tz.adv_adv] at h5
    rw [Tz.adv_adv]
    obtain ⟨w2, r3, rfl, hw2, hr2⟩ := gap_split r2
    rw [dropWhile_gap hw2 hr2] at h1
    refine (bind_ok (whitespaceOnly_at h5 hw2 hr2)).trans ?_
    have h6 := At.adv h5
    rw [Tz.adv_adv] at h6 ⊢
    rw [bind_ok (input_at h6)]
    simp only [Bool.not_eq_true'] at h1
    rw [h1]
    simp only [Bool.false_eq_true, if_false]
    rw [bind_ok (setPos_back rfl)]
    rfl

/-- A cast. -/
theorem cast_some {w1 x w2 r : Text} {e : Entry} (h : At t ('(' :: (w1 ++ x ++ w2 ++ ')' :: r)))
    (hw1 : w1.all isGap = true) (hw2 : w2.all isGap = true)
    (hf : findEntry castTable (x ++ w2 ++ ')' :: r) = some e) (hx : x = e.text.map lowerAscii) :
    matchCast t = .ok ⟨.k e.kw, mkSpan t.st.srcPos (t.st.srcPos + (byteLen w1 + byteLen x + byteLen w2 + 2))⟩
      (t.adv (byteLen w1 + byteLen x + byteLen w2 + 2)) := by
  have he : e ∈ castTable := List.mem_of_find?_eq_some hf
  have hl := castTable_len e he
  unfold matchCast
  rw [bind_ok (input_at h)]
  simp only [startsWith, beq_self_eq_true, Bool.and_true, if_true]
  refine (bind_ok inputPos_at).trans ?_
  have h2 : At t (c!"(" ++ (w1 ++ (x ++ (w2 ++ (c!")" ++ r))))) := by simpa using h
  refine (bind_ok (advanceBytes_at' h2 rfl)).trans ?_
  have h3 := At.adv h2
  have hx0 : ((x ++ (w2 ++ (c!")" ++ r))).head?.map isGap).getD false = false := by
    subst hx
    have : ∀ e ∈ castTable, ((e.text.map lowerAscii).head?.map isGap) = some false := by decide
    have h0 := this e he
    cases hh : e.text.map lowerAscii with
    | nil => rw [hh] at h0; cases h0
    | cons c cs => rw [hh] at h0; simpa using h0
  refine (bind_ok (whitespaceOnly_at h3 hw1 hx0)).trans ?_
  have h4 := At.adv h3
  rw [Tz.adv_adv] at h4 ⊢
  have hf' : findEntry castTable (x ++ (w2 ++ (c!")" ++ r))) = some e := by
    simpa using hf
  have hm := matchFirst_some castTable castTable_len h4 hf' (by rw [castTable_keep he]; rfl)
  refine (bind_ok (a := some _) (t' := _) (by rw [hm])).trans ?_
  dsimp only
  have h5 := At.adv h4
  rw [hx, ← hl, Tz.adv_adv] at h5
  rw [Tz.adv_adv]
  refine (bind_ok (whitespaceOnly_at h5 hw2 rfl)).trans ?_
  have h6 := At.adv h5
  rw [Tz.adv_adv] at h6 ⊢
  rw [bind_ok (input_at h6)]
  rw [if_pos (startsWith_append _ _)]
  refine (bind_ok (advanceBytes_at' h6 rfl)).trans ?_
  refine (bind_ok inputPos_at).trans ?_
  rw [Tz.adv_adv]
  have hn : byteLen c!"(" + byteLen w1 + byteLen e.text + byteLen w2 + byteLen c!")" =
      byteLen w1 + byteLen x + byteLen w2 + 2 := by
    rw [hl, hx]; simp [byteLen, Char.utf8Size]; omega
  rw [hn]
  rfl

end Pico
