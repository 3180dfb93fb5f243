import Verif.Lemmas.LexPanicBase
/-!
# Why the scanners panic: strings
-/
namespace Pico
open T

section
variable {src : Text} {U : Prop} {t : Tz} {E : SyntaxErr → Tz → Prop}

/-! ## Escapes -/

theorem hexByte_reads {ds : Text} (hne : ds ≠ []) (hl : ds.length ≤ 2) (hd : ∀ c ∈ ds, c.isDigit = true ∨ c ∈ c!"abcdefABCDEF") :
    fromStrRadix 255 16 ds ≠ none := by
  unfold fromStrRadix
  rw [digitsVal_value (fun c hc => ⟨(hexDigit_class (hd c hc)).2.1, (hexDigit_class (hd c hc)).2.2⟩)]
  have hv : ds.foldl (fun v c => v * 16 + digitValue c) 0 ≤ 255 := by
    have hdv : ∀ c ∈ ds, digitValue c < 16 := fun c hc => (hexDigit_class (hd c hc)).2.2
    rcases ds with _ | ⟨a, _ | ⟨b, _ | ⟨c, ds⟩⟩⟩
    · simp
    · have := hdv a (by simp)
      simp only [List.foldl_cons, List.foldl_nil]
      omega
    · have := hdv a (by simp)
      have := hdv b (by simp)
      simp only [List.foldl_cons, List.foldl_nil]
      omega
    · simp only [List.length_cons] at hl; omega
  cases ds with
  | nil => exact absurd rfl hne
  | cons a ds => simpa using hv

/-- The digits behind `\x`. -/
theorem hexEnd_split {i : Text} {x : Char} (hh : i.head? = some '\\') (hx : i[1]? = some x) (he : hexEnd i ≠ 0) :
    ∃ w b, i = '\\' :: x :: (w ++ b) ∧ w ≠ [] ∧ w.length ≤ 2 ∧ (∀ c ∈ w, isAlnum c = true) ∧ hexEnd i + 1 = 2 + w.length := by
  obtain ⟨i, rfl⟩ := head_split hh
  cases i with
  | nil => cases hx
  | cons y i =>
    have : y = x := by simpa using hx
    subst this
    cases i with
    | nil => exact absurd rfl he
    | cons c r =>
      by_cases hc : isAlnum c = true
      · cases r with
        | nil => exact ⟨[c], [], rfl, nofun, by simp, by simpa using hc, by simp [hexEnd, hc]⟩
        | cons d r =>
          by_cases hd : isAlnum d = true
          · exact ⟨[c, d], r, rfl, nofun, by simp, by simp [hc, hd], by simp [hexEnd, hc, hd]⟩
          · exact ⟨[c], d :: r, rfl, nofun, by simp, by simpa using hc, by simp [hexEnd, hc, hd]⟩
      · exact absurd (by simp [hexEnd, hc]) he

theorem tp_escape {i : Text} (bytes : List Byte) (sq : Bool) (hc : t.code = src) (hi : At t i) (hh : i.head? = some '\\')
    (hQ : sq = false → HasQuote src) :
    Tp (Zz src U) (strEscape bytes sq) t (fun bs t' => Mv src t t' ∧ t.st.srcPos < t'.st.srcPos ∧
        bs.length + t.st.srcPos ≤ bytes.length + t'.st.srcPos ∧
        ∃ w r, i = w ++ r ∧ At t' r ∧ ∀ q, isAlnum q = false → Unclosed q r → Unclosed q i)
      (fun _ t' => Mv src t t') := by
  refine Tp.cons (Tp.and (Q := fun _ _ => True) (E := fun _ _ => True) ?_ (escape_wp (U := True) (B := True) bytes sq hi hh)) ?_ ?_
  · unfold strEscape
    refine Tp.bind (Tp.of_ok (input_at hi) ?_)
    cases hx : i[1]? with
    | none => exact Tp.bind (tp_inputPos trivial)
    | some x =>
      dsimp only
      obtain ⟨r, hr⟩ : ∃ r, i = '\\' :: x :: r := by
        obtain ⟨i, rfl⟩ := head_split hh
        cases i with
        | nil => cases hx
        | cons y i =>
          have : y = x := by simpa using hx
          subst this
          exact ⟨i, rfl⟩
      have done : ∀ bs, Tp (Zz src U) (escDone bs) t (fun _ _ => True) (fun _ _ => True) := by
        intro bs
        unfold escDone
        exact Tp.bind (tp_advChars hi fun _ => trivial)
      have hinf : ['\\', x] <:+: src := by
        rw [← hc]
        have : At t (['\\', x] ++ r) := by rw [hr] at hi; exact hi
        exact this.infix
      repeat' (first | exact done _ | refine Tp.ite (fun _ => ?_) (fun _ => ?_))
      · rename_i h
        simp only [Bool.and_eq_true, Bool.not_eq_true', beq_iff_eq] at h
        obtain ⟨h1, rfl⟩ := h
        exact zz (.escape (hQ h1) (.inl hinf))
      all_goals
        first
          | (rename_i h
             simp only [Bool.and_eq_true, Bool.not_eq_true', beq_iff_eq] at h
             obtain ⟨h1, rfl⟩ := h
             exact zz (.escape (hQ h1) (.inr hinf)))
          | skip
      · rename_i hX h0 hlen
        simp only [Bool.and_eq_true, Bool.not_eq_true', Bool.or_eq_true, beq_iff_eq] at hX
        obtain ⟨w, b, rfl, w1, w2, w3, w4⟩ := hexEnd_split hh hx (by simpa using h0)
        obtain ⟨p, hp⟩ := At.whole (a := []) hi
        refine zz (.hexEscape (a := p) (w := w) (b := b) (hQ hX.1) (by rw [← hc, hp]; simp) hX.2 w1 w2
          (fun c hc => by rw [← isAlnum_iff]; exact w3 c hc) (.inl ?_))
        rw [w4] at hlen
        simp only [List.length_cons, List.length_append] at hlen
        exact List.length_eq_zero_iff.1 (by omega)
      · rename_i hX h0 hlen
        simp only [Bool.and_eq_true, Bool.not_eq_true', Bool.or_eq_true, beq_iff_eq] at hX
        obtain ⟨w, b, rfl, w1, w2, w3, w4⟩ := hexEnd_split hh hx (by simpa using h0)
        obtain ⟨p, hp⟩ := At.whole (a := []) hi
        have hw : (('\\' :: x :: (w ++ b)).take (hexEnd ('\\' :: x :: (w ++ b)) + 1)).drop 2 = w := by
          rw [w4, Nat.add_comm]
          simp
        rw [hw]
        cases hf : fromStrRadix 255 16 w with
        | some v => exact Tp.bind (tp_advChars hi fun _ => trivial)
        | none =>
          refine zz (.hexEscape (a := p) (w := w) (b := b) (hQ hX.1) (by rw [← hc, hp]; simp) hX.2 w1 w2
            (fun c hc => by rw [← isAlnum_iff]; exact w3 c hc) (.inr ?_))
          by_cases hall : ∀ c ∈ w, c.isDigit = true ∨ c ∈ c!"abcdefABCDEF"
          · exact absurd hf (hexByte_reads w1 w2 hall)
          · simpa using hall
  · rintro bs t' ⟨_, ⟨p, _, _, rfl⟩, hlt, hl, w, r, hw, hr, hq⟩
    exact ⟨⟨.of hc hr, rfl, rfl, Nat.le_of_lt hlt⟩, hlt, hl, w, r, hw, hr, hq⟩
  · rintro e t' ⟨_, _, rfl⟩
    exact Mv.refl (.of hc hi)

/-! ## Strings in single quotes -/

theorem Mv.restore {t0 t : Tz} (h : On src t0) (hc : t.code = src) : Mv src t0 { t with st := t0.st } :=
  ⟨h.same (hc.trans h.1.symm) rfl, rfl, rfl, Nat.le_refl _⟩

theorem tp_sqLoop {t0 : Tz} (hon0 : On src t0) (fuel : Nat) (bytes : List Byte) (t : Tz) (h : Mv src t0 t) :
    Tp (Zz src U) (sqLoop t0.st fuel bytes) t (fun _ t' => Mv src t0 t') (fun _ t' => Mv src t0 t') := by
  induction fuel generalizing bytes t with
  | zero => exact trivial
  | succ fuel ih =>
    unfold sqLoop
    refine Tp.bind (tp_input h.on fun i hi => ?_)
    dsimp only
    refine Tp.bind (tp_advChars hi fun hi2 => ?_)
    have m1 := h.trans (Mv.adv h.on.1 hi2)
    refine Tp.bind (Tp.of_ok (input_at hi2) ?_)
    generalize hr : i.drop _ = r at *
    split
    · rename_i hh
      obtain ⟨q, rfl⟩ := head_split hh
      refine Tp.bind (tp_advBytes hi2 rfl fun hi3 => ?_)
      refine Tp.bind (m := modSt _) (Tp.of_ok rfl ?_)
      exact ih _ _ (m1.trans (Mv.adv h.on.1 hi3)).nextLine
    · rename_i hh
      refine Tp.bind ((tp_escape _ true m1.on.1 hi2 hh nofun).cons ?_ ?_)
      · rintro bs t' ⟨m2, _⟩
        exact ih _ _ (m1.trans m2)
      · exact fun _ _ m2 => m1.trans m2
    · rename_i hh
      obtain ⟨q, rfl⟩ := head_split hh
      exact Tp.bind (tp_advBytes hi2 rfl fun hi3 => m1.trans (Mv.adv h.on.1 hi3))
    · refine Tp.bind (tp_inputPos ?_)
      refine Tp.bind (m := setSt _) (Tp.of_ok rfl ?_)
      exact Mv.restore hon0 h.on.1

theorem tp_sqString (hon : On src t) : Tp (Zz src U) matchSqString t (fun _ t' => Mv src t t') (fun _ t' => Mv src t t') := by
  unfold matchSqString
  refine Tp.bind (tp_input hon fun i hi => ?_)
  refine Tp.ite (fun _ => Mv.refl hon) (fun _ => ?_)
  refine Tp.bind (m := getSt) (Tp.of_ok rfl ?_)
  dsimp only
  have body : ∀ t1, Mv src t t1 → Tp (Zz src U) (do
      let bytes ← sqLoop t.st (i.length + 1) []
      let p ← inputPos
      return (⟨bytesToken bytes, mkSpan t.st.srcPos p⟩ : TokSpan)) t1 (fun _ t' => Mv src t t') (fun _ t' => Mv src t t') := by
    intro t1 m1
    refine Tp.bind ((tp_sqLoop hon _ _ t1 m1).cons (fun _ t' m2 => ?_) (fun _ _ h => h))
    exact Tp.bind (tp_inputPos m2)
  refine Tp.ite (fun h => ?_) (fun _ => Tp.ite (fun h => ?_) (fun _ => Mv.refl hon))
  · obtain ⟨r, rfl⟩ := startsWith_split h
    exact Tp.bind (tp_advBytes hi rfl fun hi2 => body _ (Mv.adv hon.1 hi2))
  · obtain ⟨r, rfl⟩ := startsWith_split h
    exact Tp.bind (tp_advBytes hi rfl fun hi2 => body _ (Mv.adv hon.1 hi2))

/-! ## Blocks -/

/-- What is known between two tokens. -/
structure Bd (src : Text) (t : Tz) : Prop where
  on : On src t
  stk : ∀ s ∈ t.st.stack, s = .inScripting ∨ s = .doNothing
  head : t.st.state = .emitQueue ∨ t.st.state = .lookingForProperty → t.st.stack ≠ []

/-- What is known after an error: the position may have been moved by one byte. -/
def Er (src : Text) (t : Tz) : Prop := t.code = src ∧ (On src t ∨ ∃ c ∈ src, 128 ≤ c.toNat)

theorem Mv.bd {t t' : Tz} (h : Mv src t t') (hb : Bd src t) : Bd src t' :=
  ⟨h.on, by rw [h.stack]; exact hb.stk, by rw [h.stack, h.state]; exact hb.head⟩

theorem On.er (h : On src t) : Er src t := ⟨h.1, .inl h⟩

/-- What is needed of the tokenizer called for blocks. -/
def NextP (src : Text) (next : T TokSpan) : Prop := ∀ t, Bd src t →
  Tp (Zz src ('}' ∈ src)) next t (fun _ t' => Bd src t' ∧ t.st.srcPos ≤ t'.st.srcPos) (fun _ t' => Er src t' ∧ t.st.srcPos ≤ t'.st.srcPos)

theorem tp_blockLoop {next : T TokSpan} (hn : NextP src next) (hB : HasBlock src) (fuel : Nat) (acc : List TokSpan) (t : Tz)
    (h : Bd src t) : Tp (Zz src U) (blockLoop next fuel acc) t
      (fun toks t' => acc <+: toks ∧ On src t' ∧ t.st.srcPos ≤ t'.st.srcPos) (fun _ _ => False) := by
  induction fuel generalizing acc t with
  | zero => exact trivial
  | succ fuel ih =>
    have hnx := hn t h
    unfold Tp at hnx
    cases hm : next t with
    | ok tok t' =>
      rw [hm] at hnx
      have := ih (acc ++ [tok]) t' hnx.1
      have e : blockLoop next (fuel + 1) acc t = blockLoop next fuel (acc ++ [tok]) t' := by
        conv => lhs; unfold blockLoop
        simp only [hm]
      have := this.cons (E := fun _ _ => False) (fun toks t2 h2 => (⟨(List.prefix_append acc [tok]).trans h2.1, h2.2.1, Nat.le_trans hnx.2 h2.2.2⟩ :
        acc <+: toks ∧ On src t2 ∧ t.st.srcPos ≤ t2.st.srcPos)) (fun _ _ h => h)
      unfold Tp at this ⊢
      rw [e]
      exact this
    | err e t' =>
      rw [hm] at hnx
      refine Tp.of_ok (a := acc) (t' := t') (by unfold blockLoop; simp only [hm]) ⟨List.prefix_refl _, ?_, hnx.2⟩
      rcases hnx.1.2 with h1 | ⟨c, hc, hlt⟩
      · exact h1
      · exact ⟨hnx.1.1, .inr (.wide hc hlt (.inr hB))⟩
    | panic p =>
      rw [hm] at hnx
      refine Tp.of_panic (p := p) (by unfold blockLoop; simp only [hm]) ?_
      rcases hnx with h1 | ⟨rfl, h1⟩
      · exact .inl h1
      · exact .inl (.block hB h1)
    | oof =>
      unfold Tp blockLoop
      simp only [hm]

theorem tp_flush {Z : Panic → Prop} (bytes : List Byte) (parts : List TokSpan) (stop : Nat) (h : bytes.length ≤ stop) :
    Tp Z (flushBytes bytes parts stop) t (fun ps t' => t' = t ∧ (bytes = [] → ps = parts)) E := by
  unfold flushBytes
  refine Tp.ite (fun _ => ⟨rfl, fun _ => rfl⟩) (fun hne => ?_)
  exact Tp.bind (tp_subT h ⟨rfl, fun h => absurd (by rw [h]; rfl) hne⟩)

/-- Scanning on inside a string. -/
def StrP (src : Text) (t : Tz) (r : List Byte × List TokSpan) (t' : Tz) : Prop :=
  Mv src t t' ∧ t.st.srcPos < t'.st.srcPos ∧ r.1.length ≤ t'.st.srcPos

theorem tp_strBlock {next : T TokSpan} (hn : NextP src next) (fuel : Nat) (bytes : List Byte) (parts : List TokSpan)
    (rd : Bool) {r : Text} (hc : t.code = src) (h1 : bytes.length ≤ t.st.srcPos) (hi : At t (c!"{" ++ r))
    (hb : rd = false → HasBlock src) :
    Tp (Zz src U) (strBlock next fuel bytes parts rd) t (fun r t' => StrP src t r t' ∧ FirstBrace t bytes parts r)
      (fun _ _ => False) := by
  have same : ∀ bs, FirstBrace t bytes parts (bs, parts) := by
    intro bs _ ts hts
    simp at hts
  unfold strBlock
  refine Tp.bind (tp_advBytes hi rfl fun hi1 => ?_)
  have m1 := Mv.adv hc hi1
  have hp : (t.adv (byteLen c!"{")).st.srcPos = t.st.srcPos + 1 := rfl
  generalize hu : t.adv (byteLen c!"{") = u at *
  refine Tp.bind (Tp.of_ok (input_at hi1) ?_)
  refine Tp.ite (fun hd => ?_) (fun _ => ⟨⟨m1, by omega, by simp only [List.length_append, List.length_cons, List.length_nil]; omega⟩, same _⟩)
  have hblock : HasBlock src := by
    cases rd with
    | false => exact hb rfl
    | true =>
      simp only [Bool.not_true, Bool.or_false] at hd
      obtain ⟨r', rfl⟩ := startsWith_split hd
      left
      have : At t (c!"{$" ++ r') := hi
      rw [← hc]
      exact this.infix
  refine Tp.bind (m := getSt) (Tp.of_ok rfl ?_)
  refine Tp.bind (m := modSt _) (Tp.of_ok rfl ?_)
  refine Tp.bind (tp_inputPos ?_)
  refine Tp.bind (tp_subT (show 1 ≤ u.st.srcPos by omega) ?_)
  have hbd : Bd src { u with st := { u.st with state := .inScripting, stack := [.doNothing] } } := by
    refine ⟨m1.on.same rfl rfl, ?_, ?_⟩
    · intro s hs; rw [List.mem_singleton] at hs; exact .inr hs
    · rintro (h | h) <;> cases h
  refine Tp.bind ((tp_blockLoop hn hblock fuel _ _ hbd).cons ?_ (fun _ _ h => h))
  rintro toks t' ⟨hpre, hon', hle⟩
  have hle : u.st.srcPos ≤ t'.st.srcPos := hle
  refine Tp.ite (fun _ => ?_) (fun _ => ?_)
  · refine Tp.bind (tp_subT (show 1 ≤ u.st.srcPos by omega) ?_)
    refine Tp.bind ((tp_flush bytes parts _ (show bytes.length ≤ u.st.srcPos - 1 by omega)).cons ?_ (fun _ _ h => h))
    rintro ps t'' ⟨rfl, hpb⟩
    refine Tp.bind (m := modSt _) (Tp.of_ok rfl ?_)
    refine ⟨⟨⟨hon'.same rfl rfl, m1.state, m1.stack, ?_⟩, ?_, Nat.zero_le _⟩, ?_⟩
    · show t.st.srcPos ≤ t''.st.srcPos; omega
    · show t.st.srcPos < t''.st.srcPos; omega
    · intro hb0 ts hts
      rw [hpb hb0] at hts
      obtain ⟨more, rfl⟩ := hpre
      simp only [List.getElem?_append_right (Nat.le_refl _), Nat.sub_self, List.cons_append, List.getElem?_cons_zero,
        Option.some.injEq] at hts
      rw [← hts, ← hu]
      simp only [Tz.adv_pos]
      exact congrArg (fun p => (⟨.k .CurlyBracesOpen, mkSpan p (t.st.srcPos + 1)⟩ : TokSpan)) (Nat.add_sub_cancel ..)
  · refine Tp.bind (m := setSt _) (Tp.of_ok rfl ?_)
    have m2 : Mv src u { t' with st := u.st } := Mv.restore m1.on hon'.1
    exact ⟨⟨m1.trans m2, by show t.st.srcPos < u.st.srcPos; omega, by show bytes.length ≤ u.st.srcPos; omega⟩, same _⟩

theorem tp_strVariable {next : T TokSpan} (hn : NextP src next) (hQ : HasQuote src) (fuel : Nat) (bytes : List Byte) (parts : List TokSpan)
    {r : Text} (hc : t.code = src) (h1 : bytes.length ≤ t.st.srcPos) (hi : At t (c!"$" ++ r)) :
    Tp (Zz src U) (strVariable next fuel bytes parts) t (StrP src t) (fun _ _ => False) := by
  unfold strVariable
  refine Tp.bind (tp_advBytes hi rfl fun hi1 => ?_)
  have m1 := Mv.adv hc hi1
  have hp : (t.adv (byteLen c!"$")).st.srcPos = t.st.srcPos + 1 := rfl
  generalize hu : t.adv (byteLen c!"$") = u at *
  refine Tp.bind (Tp.of_ok (input_at hi1) ?_)
  refine Tp.ite (fun hd => ?_) (fun _ => ?_)
  · obtain ⟨r', rfl⟩ := startsWith_split hd
    have hinf : c!"${" <:+: src := by
      have : At t (c!"${" ++ r') := hi
      rw [← hc]
      exact this.infix
    refine Tp.bind (tp_inputPos ?_)
    refine Tp.bind (tp_subT (by omega) ?_)
    refine Tp.bind ((tp_flush bytes parts _ (by omega)).cons ?_ (fun _ _ h => h))
    rintro ps t'' ⟨rfl, _⟩
    refine Tp.bind ((tp_strBlock hn fuel [] ps false m1.on.1 (Nat.zero_le _) hi1 (fun _ => .inr hinf)).cons ?_ (fun _ _ h => h))
    rintro ⟨bs, ps'⟩ t2 ⟨⟨m2, l2, hr2⟩, hfb⟩
    dsimp only at hr2 ⊢
    cases hget : ps'[ps.length]? with
    | none => exact zz (.dollarBrace hQ hinf)
    | some ts =>
      have hts := hfb rfl ts hget
      dsimp only
      refine Tp.ite (fun _ => ?_) (fun hne => ?_)
      · refine Tp.bind (tp_subT ?_ ?_)
        · rw [hts]; show 1 ≤ t''.st.srcPos; omega
        · exact ⟨m1.trans m2, by omega, hr2⟩
      · exfalso
        apply hne
        rw [hts]
        rfl
  · refine Tp.bind (tp_label m1.on ?_ fun w r2 hw hl hat => ?_)
    · exact ⟨m1, by omega, by simp only [List.length_append, List.length_cons, List.length_nil]; omega⟩
    · dsimp only
      have m2 := m1.trans (Mv.adv m1.on.1 hat)
      refine Tp.bind (Tp.of_ok (input_at hat) ?_)
      refine Tp.bind (Tp.cons (Q' := fun (_ : List TokSpan) t' => Mv src (u.adv (byteLen w)) t') (E' := fun _ _ => False) ?_ ?_ (fun _ _ h => h))
      · refine Tp.ite (fun hd => ?_) (fun _ => Tp.ite (fun hd => ?_) (fun _ => Mv.refl m2.on))
        · obtain ⟨r3, rfl⟩ := startsWith_split hd
          refine zz (.element (w := w) hQ hl ?_)
          have e := hi1.unique hw
          have : At t ((c!"$" ++ w ++ c!"[") ++ r3) := by
            rw [e] at hi
            simpa using hi
          rw [← hc]
          exact this.infix
        · obtain ⟨r3, rfl⟩ := startsWith_split hd
          refine Tp.bind (tp_inputPos ?_)
          refine Tp.bind (tp_advBytes hat rfl fun hi4 => ?_)
          have m4 := Mv.adv m2.on.1 hi4
          refine Tp.bind (tp_label m4.on ?_ fun w2 r4 hw2 hl2 hat2 => ?_)
          · exact (⟨m2.on.same rfl rfl, rfl, rfl, Nat.le_refl _⟩ : Mv src _ _)
          · exact m4.trans (Mv.adv m2.on.1 hat2)
      · rintro tmp t' m3
        have hle := m3.le
        rw [Tz.adv_pos] at hle
        refine Tp.bind (tp_subT (show 1 ≤ u.st.srcPos by omega) ?_)
        refine Tp.bind ((tp_flush bytes parts _ (show bytes.length ≤ u.st.srcPos - 1 by omega)).cons ?_ (fun _ _ h => h))
        rintro ps t'' ⟨rfl, _⟩
        exact ⟨m2.trans m3, by omega, Nat.zero_le _⟩

end
end Pico
