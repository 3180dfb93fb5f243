import Verif.Lemmas.LexItem
import Verif.Lemmas.LayStr
import Verif.Spec.Quoted
/-!
# Reading literals between double quotes
-/
namespace Pico
open T
variable {t : Tz}

theorem hexDigit_or {c : Char} (h : hexDigit c = true) : c.isDigit = true ∨ c ∈ c!"abcdefABCDEF" := by simpa [hexDigit] using h

theorem strEscape_byte {k : Char} {ds rest : Text} (h : At t ('\\' :: k :: (ds ++ rest))) (hk : k = 'x' ∨ k = 'X')
    (hd : ds.length = 2 ∨ ds.length = 1 ∧ ∀ c, rest.head? = some c → c.isAlphanum = false)
    (hx : ∀ c ∈ ds, hexDigit c = true) (hr : rest ≠ []) (bytes : List Byte) :
    strEscape bytes false t = .ok (bytes ++ [numberValue 16 ds]) (t.adv (byteLen ('\\' :: k :: ds))) := by
  replace hx := fun c hc => hexDigit_or (hx c hc)
  have hle : numberValue 16 ds ≤ 255 := by
    have hdv : ∀ c ∈ ds, digitValue c < 16 := fun c hc => (hexDigit_class (hx c hc)).2.2
    unfold numberValue
    rcases ds with _ | ⟨a, _ | ⟨b, _ | ⟨c, ds⟩⟩⟩
    · simp
    · have := hdv a (by simp)
      simp only [List.foldl_cons, List.foldl_nil]
      omega
    · have := hdv a (by simp)
      have := hdv b (by simp)
      simp only [List.foldl_cons, List.foldl_nil]
      omega
    · simp only [List.length_cons] at hd; omega
  have hval : fromStrRadix 255 16 ds = some (numberValue 16 ds) := by
    unfold fromStrRadix
    cases ds with
    | nil => rcases hd with hd | hd <;> simp at hd
    | cons c ds =>
      simp only [digitsVal_value (fun c hc => (hexDigit_class (hx c hc)).2)]
      unfold numberValue at hle ⊢
      rw [if_pos hle]
  have hend : hexEnd ('\\' :: k :: (ds ++ rest)) = ds.length + 1 := by
    unfold hexEnd
    rcases hd with hd | ⟨hd, hn⟩
    · obtain ⟨a, b, rfl⟩ : ∃ a b, ds = [a, b] := by
        match ds, hd with
        | [a, b], _ => exact ⟨a, b, rfl⟩
      simp [(hexDigit_class (hx a (by simp))).1, (hexDigit_class (hx b (by simp))).1]
    · obtain ⟨a, rfl⟩ := List.length_eq_one_iff.1 hd
      cases rest with
      | nil => exact absurd rfl hr
      | cons c rest =>
        have := hn c rfl
        rw [← isAlnum_iff] at this
        simp [(hexDigit_class (hx a (by simp))).1, this]
  have hlen : 0 < rest.length := List.length_pos_iff.2 hr
  have h1 : At t (('\\' :: k :: ds) ++ rest) := h
  unfold strEscape
  rw [bind_ok (input_at h)]
  simp only [List.getElem?_cons_succ, List.getElem?_cons_zero, hend]
  have htk : (('\\' :: k :: (ds ++ rest)).take (ds.length + 1 + 1)).drop 2 = ds := by
    simp [List.take_succ_cons]
  rw [htk, hval]
  have hl : ¬ ('\\' :: k :: (ds ++ rest)).length ≤ ds.length + 1 + 1 := by
    simp only [List.length_cons, List.length_append]
    omega
  simp only [hl]
  rcases hk with rfl | rfl <;> exact bind_ok (advanceChars_at h1 (by simp; omega))

theorem strEscape_noHex {k : Char} {rest : Text} (h : At t ('\\' :: k :: rest)) (hk : k = 'x' ∨ k = 'X')
    (hn : ∀ c, rest.head? = some c → c.isAlphanum = false) (bytes : List Byte) :
    strEscape bytes false t = .ok (bytes ++ encode ['\\', k]) (t.adv (byteLen ['\\', k])) := by
  have hend : hexEnd ('\\' :: k :: rest) = 0 := by
    unfold hexEnd
    cases rest with
    | nil => rfl
    | cons c rest =>
      have := hn c rfl
      rw [← isAlnum_iff] at this
      simp [this]
  unfold strEscape
  rw [bind_ok (input_at h)]
  simp only [List.getElem?_cons_succ, List.getElem?_cons_zero, hend]
  rcases hk with rfl | rfl <;> exact escDone_at h _

theorem digitVal_noHex {c : Char} (ha : c.isAlphanum = true) (h : hexDigit c = false) : digitVal 16 c = none := by
  rw [← isAlnum_iff] at ha
  have hasc : c.toNat < 128 := by
    simp only [isAlnum, inRange, Bool.or_eq_true, Bool.and_eq_true, decide_eq_true_eq] at ha
    have e1 : 'z'.toNat = 122 := rfl
    have e2 : 'Z'.toNat = 90 := rfl
    have e3 : '9'.toNat = 57 := rfl
    omega
  have key : ∀ n : Fin 128, isAlnum (Char.ofNat n) = true → hexDigit (Char.ofNat n) = false → digitVal 16 (Char.ofNat n) = none := by decide +kernel
  have := key ⟨c.toNat, hasc⟩
  simp only [Char.ofNat_toNat] at this
  exact this ha h

theorem strEscape_bad {w r : Text} (hw : badEscape w) (h : At t (w ++ r)) (bytes : List Byte) : ∃ p, strEscape bytes false t = .panic p := by
  unfold strEscape
  rw [bind_ok (input_at h)]
  rcases hw with rfl | rfl | ⟨k, d, hk, rfl, ha, hd⟩ | ⟨k, d, e, hk, rfl, hd, ha, he⟩
  · exact ⟨_, rfl⟩
  · exact ⟨_, rfl⟩
  · have hn := digitVal_noHex ha hd
    rw [← isAlnum_iff] at ha
    have hv : ∀ x, fromStrRadix 255 16 (d :: x) = none := by
      intro x
      unfold fromStrRadix
      simp [digitsVal, hn]
    have hend : hexEnd (['\\', k, d] ++ r) = 2 ∨ hexEnd (['\\', k, d] ++ r) = 3 := by
      unfold hexEnd
      simp only [List.cons_append, List.nil_append, List.getElem?_cons_succ, List.getElem?_cons_zero, ha, if_true]
      cases hr : r[0]? with
      | none => simp
      | some c => cases hc : isAlnum c <;> simp [hc]
    have htk : ∀ e, e = 2 ∨ e = 3 → fromStrRadix 255 16 (((['\\', k, d] ++ r).take (e + 1)).drop 2) = none := by
      rintro e (rfl | rfl) <;> simp [hv]
    refine ⟨.unwrap, ?_⟩
    simp only [List.cons_append, List.nil_append, List.getElem?_cons_succ, List.getElem?_cons_zero] at hend htk ⊢
    generalize hexEnd ('\\' :: k :: d :: r) = e at hend
    rw [htk e hend]
    have he0 : (e == 0) = false := by rcases hend with rfl | rfl <;> rfl
    have hite : ∀ P : Prop, [Decidable P] → (if P then abort .unwrap else (abort .unwrap : T (List Byte))) = abort .unwrap := by
      intro P _; split <;> rfl
    simp only [he0, hite]
    rcases hk with rfl | rfl <;> rfl
  · have hn := digitVal_noHex ha he
    have hda : isAlnum d = true := (hexDigit_class (hexDigit_or hd)).1
    rw [← isAlnum_iff] at ha
    have hend : hexEnd (['\\', k, d, e] ++ r) = 3 := by
      unfold hexEnd
      simp [hda, ha]
    have htk : fromStrRadix 255 16 (((['\\', k, d, e] ++ r).take 4).drop 2) = none := by
      simp only [List.cons_append, List.nil_append, List.take_succ_cons, List.take_zero, List.drop_succ_cons, List.drop_zero]
      unfold fromStrRadix
      simp only [digitsVal, hn]
      cases digitVal 16 d <;> rfl
    refine ⟨.unwrap, ?_⟩
    simp only [List.cons_append, List.nil_append, List.getElem?_cons_succ, List.getElem?_cons_zero] at hend htk ⊢
    rw [hend]
    rw [htk]
    have hite : ∀ P : Prop, [Decidable P] → (if P then abort .unwrap else (abort .unwrap : T (List Byte))) = abort .unwrap := by
      intro P _; split <;> rfl
    simp only [hite]
    rcases hk with rfl | rfl <;> rfl

private theorem head_of {x r : Text} {p : Char → Prop} (hr : r.head? = some '"' ∨ r.head? = some '\\') (h1 : p '"') (h2 : p '\\')
    (h : ∀ c, x.head? = some c → p c) : ∀ c, (x ++ r).head? = some c → p c := by
  intro c hc
  cases x with
  | nil =>
    rcases hr with hr | hr <;> rw [List.nil_append, hr] at hc <;> cases hc <;> assumption
  | cons d x => cases hc; exact h c rfl

private theorem dqLoop_plain_stop (next : T TokSpan) (bf : Nat) (bak : TState) (f : Nat) (bytes : List Byte) (parts : List TokSpan) {c : Char} {r : Text}
    (h : At t (c :: r)) (hc : isDqStop c = false) (hr : ∃ c ∈ r, isDqStop c = true) :
    dqLoop next bf bak (f + 1) bytes parts t = dqLoop next bf bak (f + 1) (bytes ++ encodeChar c) parts (t.adv c.utf8Size) := by
  have h1 : At t ([c] ++ r) := h
  have h2 : At (t.adv c.utf8Size) r := At.adv h1
  obtain ⟨k, hk, hle⟩ := position_some_of_mem (p := isDqStop) hr
  have hpos : position isDqStop (c :: r) = some (k + 1) := by
    unfold position
    rw [hc, hk]
    rfl
  have h3 : At t ((c :: r.take k) ++ r.drop k) := by simpa using h
  have h4 : At (t.adv c.utf8Size) (r.take k ++ r.drop k) := by simpa using h2
  have hd : ∀ {t : Tz} {a b : Text} (n : Nat), At t (a ++ b) → position isDqStop (a ++ b) = some n → n = a.length →
      dqAdvance t = .ok a (t.adv (byteLen a)) := by
    intro t a b n h hp hn
    unfold dqAdvance
    rw [bind_ok (input_at h), hp]
    exact advanceChars_at h hn
  conv => lhs; unfold dqLoop
  conv => rhs; unfold dqLoop
  rw [bind_ok (hd (k + 1) h3 (by simpa using hpos) (by simp [hle])), bind_ok (hd k h4 (by simpa using hk) (by simp [hle]))]
  rw [encode_cons, ← List.append_assoc, Tz.adv_adv]
  rfl

/-- The loop that reads such a literal collects its bytes. -/
theorem dqLoop_means (next : T TokSpan) (bf : Nat) (bak : TState) {x : Text} {bs : List Nat} (h : DqMeans false x bs) : ∀ (f : Nat) (bytes : List Byte)
    (t : Tz) (r : Text), r.head? = some '"' ∨ r.head? = some '\\' → x.length ≤ f → At t (x ++ r) →
    ∃ f' t', dqLoop next bf bak (f + 1) bytes [] t = dqLoop next bf bak (f' + 1) (bytes ++ bs) [] t' ∧ Moved t t' r ∧ t.st.srcPos ≤ t'.st.srcPos := by
  have step : ∀ {x r v bs : _} {f g : Nat} {bytes : List Byte} {t u : Tz}, (∀ (f : Nat) (bytes : List Byte)
      (t : Tz) (r : Text), r.head? = some '"' ∨ r.head? = some '\\' → x.length ≤ f → At t (x ++ r) →
      ∃ f' t', dqLoop next bf bak (f + 1) bytes [] t = dqLoop next bf bak (f' + 1) (bytes ++ bs) [] t' ∧ Moved t t' r ∧ t.st.srcPos ≤ t'.st.srcPos) →
      r.head? = some '"' ∨ r.head? = some '\\' → x.length ≤ g → Moved t u (x ++ r) → t.st.srcPos ≤ u.st.srcPos →
      dqLoop next bf bak (f + 1) bytes [] t = dqLoop next bf bak (g + 1) (bytes ++ v) [] u →
      ∃ f' t', dqLoop next bf bak (f + 1) bytes [] t = dqLoop next bf bak (f' + 1) (bytes ++ (v ++ bs)) [] t' ∧ Moved t t' r ∧ t.st.srcPos ≤ t'.st.srcPos := by
    intro x r v bs f g bytes t u ih hr hg hu hp he
    obtain ⟨f', t', h1, h2, h3⟩ := ih g (bytes ++ v) u r hr hg hu.at'
    exact ⟨f', t', by rw [he, h1, List.append_assoc], hu.trans h2, Nat.le_trans hp h3⟩
  induction h with
  | nil => exact fun f bytes t r _ _ hat => ⟨f, t, by rw [List.append_nil], ⟨hat, rfl, rfl, rfl, rfl⟩, Nat.le_refl _⟩
  | @plain x bs c hc _ ih =>
    intro f bytes t r hr hf hat
    simp only [List.length_cons] at hf
    simp only [List.mem_cons, List.not_mem_nil, or_false, not_or] at hc
    have hat1 : At t ([c] ++ (x ++ r)) := hat
    have hm := Moved.adv hat1
    by_cases hn : c = '\n'
    · subst hn
      obtain ⟨f, rfl⟩ : ∃ g, f = g + 1 := ⟨f - 1, by omega⟩
      refine step (v := utf8 ['\n']) (g := f) (u := { (t.adv 1) with st := (t.adv 1).st.nextLine }) ih hr (by omega) ⟨hm.at', rfl, rfl, rfl, rfl⟩ (Nat.le_add_right _ _) ?_
      rw [dqLoop_stop next bf bak (c := '\n') hat (by decide)]
      simp only [List.head?_cons]
      have hat' : At t (c!"\n" ++ (x ++ r)) := hat
      refine (bind_ok (advanceBytes_at' hat' rfl)).trans ?_
      tstep (()) { (t.adv 1) with st := (t.adv 1).st.nextLine }
      rfl
    · refine step (v := utf8 [c]) (g := f) ih hr (by omega) hm (Nat.le_add_right _ _) ?_
      have hmem : ∃ c ∈ x ++ r, isDqStop c = true := by
        rcases hr with hr | hr
        · exact ⟨'"', List.mem_append_right _ (List.mem_of_mem_head? hr), by decide⟩
        · exact ⟨'\\', List.mem_append_right _ (List.mem_of_mem_head? hr), by decide⟩
      have := dqLoop_plain_stop next bf bak f bytes [] hat (by simp [isDqStop, hc, hn]) hmem
      rw [List.cons_append] at hat
      rw [this]
      simp [byteLen, utf8_one]
  | @dollar x bs hx _ ih =>
    intro f bytes t r hr hf hat
    simp only [List.length_cons] at hf
    obtain ⟨f, rfl⟩ : ∃ g, f = g + 1 := ⟨f - 1, by omega⟩
    have hat1 : At t (c!"$" ++ (x ++ r)) := hat
    have hm := Moved.adv hat1
    refine step (v := [36]) (g := f) ih hr (by omega) hm (Nat.le_add_right _ _) ?_
    have hh := head_of (p := fun c => c.isAlpha = false ∧ c ∉ c!"_{" ∧ c.toNat < 128) hr (by decide) (by decide) hx
    rw [dqLoop_stop next bf bak (c := '$') hat (by decide)]
    simp only [List.head?_cons]
    have k1 : noIdentifier (x ++ r) := by
      generalize x ++ r = y at hh
      cases y with
      | nil => exact .inl rfl
      | cons c r =>
        obtain ⟨h4, h5, h6⟩ := hh c rfl
        cases hd : c.isDigit with
        | true => exact .inr ⟨c, r, rfl, hd⟩
        | false =>
          left
          simp only [List.mem_cons, List.not_mem_nil, or_false, not_or] at h5
          simp [endsIdentifier, isIdChar, Char.isAlphanum, h4, hd, h5.1, h6]
    have k2 : startsWith (x ++ r) c!"{" = false := by
      generalize x ++ r = y at hh
      cases y with
      | nil => rfl
      | cons c r =>
        have := (hh c rfl).2.1
        simp only [List.mem_cons, List.not_mem_nil, or_false, not_or] at this
        simp [startsWith, this.2]
    exact bind_ok (strVariable_dollar next bf hat k1 k2 _ _)
  | @brace x bs hx _ ih =>
    intro f bytes t r hr hf hat
    simp only [List.length_cons] at hf
    obtain ⟨f, rfl⟩ : ∃ g, f = g + 1 := ⟨f - 1, by omega⟩
    have hat1 : At t (c!"{" ++ (x ++ r)) := hat
    have hm := Moved.adv hat1
    refine step (v := [123]) (g := f) ih hr (by omega) hm (Nat.le_add_right _ _) ?_
    have hh := head_of (p := fun c => c ≠ '$') hr (by decide) (by decide) (fun c hc h => hx (by rw [hc, h]))
    rw [dqLoop_stop next bf bak (c := '{') hat (by decide)]
    simp only [List.head?_cons]
    have k2 : startsWith (x ++ r) c!"$" = false := by
      generalize x ++ r = y at hh
      cases y with
      | nil => rfl
      | cons c r =>
        have := hh c rfl
        simp [startsWith, this]
    exact bind_ok (strBlock_brace next bf hat k2 _ _)
  | @letter x bs c b hc _ ih =>
    intro f bytes t r hr hf hat
    simp only [List.length_cons] at hf
    obtain ⟨f, rfl⟩ : ∃ g, f = g + 1 := ⟨f - 1, by omega⟩
    have hat1 : At t (['\\', c] ++ (x ++ r)) := hat
    have hm := Moved.adv hat1
    have htab : ∀ p ∈ letterEscapes, (p.1, Char.ofNat p.2) ∈ dqEscapes ∧ p.2 < 128 := by decide
    have := htab _ hc
    refine step (v := [b]) (g := f) ih hr (by omega) hm (Nat.le_add_right _ _) ?_
    rw [dqLoop_stop next bf bak (c := '\\') hat (by decide)]
    simp only [List.head?_cons]
    have he := strEscape_esc hat this.1 bytes
    rw [encode_ofNat this.2] at he
    exact bind_ok he
  | @hex x ds bs k hk hl hd hf _ ih =>
    intro f bytes t r hr hfu hat
    simp only [List.length_cons, List.length_append] at hfu
    obtain ⟨f, rfl⟩ : ∃ g, f = g + 1 := ⟨f - 1, by omega⟩
    have hat0 : At t ('\\' :: k :: (ds ++ (x ++ r))) := by simpa using hat
    have hat1 : At t (('\\' :: k :: ds) ++ (x ++ r)) := hat0
    have hm := Moved.adv hat1
    have hf := hf.resolve_left (by decide)
    refine step (v := [numberValue 16 ds]) (g := f) ih hr (by omega) hm (Nat.le_add_right _ _) ?_
    rw [dqLoop_stop next bf bak (c := '\\') hat0 (by decide)]
    simp only [List.head?_cons]
    refine bind_ok (strEscape_byte hat0 hk ?_ hd ?_ bytes)
    · exact hl.imp id fun h => ⟨h.1, head_of (p := fun c => c.isAlphanum = false) hr (by decide) (by decide) (hf h.1)⟩
    · intro h
      rw [(List.append_eq_nil_iff.1 h).2] at hr
      rcases hr with hr | hr <;> cases hr
  | @other x bs c hc _ ih =>
    intro f bytes t r hr hf hat
    simp only [List.length_cons] at hf
    obtain ⟨f, rfl⟩ : ∃ g, f = g + 1 := ⟨f - 1, by omega⟩
    have hat1 : At t (['\\', c] ++ (x ++ r)) := hat
    have hm := Moved.adv hat1
    refine step (v := utf8 ['\\', c]) (g := f) ih hr (by omega) hm (Nat.le_add_right _ _) ?_
    rw [dqLoop_stop next bf bak (c := '\\') hat (by decide)]
    simp only [List.head?_cons]
    rw [utf8_eq]
    refine bind_ok (strEscape_raw hat ?_ bytes)
    intro hm
    apply hc
    simp only [List.mem_cons, List.not_mem_nil, or_false] at hm ⊢
    rcases hm with h | h | h | h | h | h | h | h | h | h | h | h <;> simp [h]
  | @noHex x bs c hc hx hf _ ih =>
    intro f bytes t r hr hfu hat
    simp only [List.length_cons] at hfu
    obtain ⟨f, rfl⟩ : ∃ g, f = g + 1 := ⟨f - 1, by omega⟩
    have hat1 : At t (['\\', c] ++ (x ++ r)) := hat
    have hm := Moved.adv hat1
    refine step (v := utf8 ['\\', c]) (g := f) ih hr (by omega) hm (Nat.le_add_right _ _) ?_
    rw [dqLoop_stop next bf bak (c := '\\') hat (by decide)]
    simp only [List.head?_cons]
    rw [utf8_eq]
    exact bind_ok (strEscape_noHex hat hc (head_of (p := fun c => c.isAlphanum = false) hr (by decide) (by decide) (hf.resolve_left (by decide))) bytes)
  | escape hf => cases hf
  | octal hf => cases hf
  | unicode hf => cases hf

/-- The token of the bytes of a literal. -/
def meansTok (bs : List Nat) : List Token := if bs.isEmpty then [] else [bytesToken bs]

theorem dqString_means (next : T TokSpan) (bf : Nat) {x : Text} {bs : List Nat} (hx : DqMeans false x bs) {r : Text} (h : At t ('"' :: (x ++ '"' :: r)))
    (hq : t.queue = []) :
    ∃ sp q t', matchDqString next bf t = .ok ⟨.k .DoubleQuote, sp⟩ { t' with queue := q, st := t'.st.push .emitQueue } ∧ Moved t t' r ∧
      q.map TokSpan.tok = meansTok bs ++ [.k .DoubleQuote] := by
  have h1 : At t (c!"\"" ++ (x ++ '"' :: r)) := h
  have hm := Moved.adv h1
  obtain ⟨f', t0, e1, e2, e3⟩ := dqLoop_means next bf t.st hx (('"' :: (x ++ '"' :: r)).length) [] _ ('"' :: r) (.inl rfl)
    (by simp only [List.length_cons, List.length_append]; omega) hm.at'
  have h2 : At t0 (c!"\"" ++ r) := e2.at'
  have hm2 := Moved.adv' h2 (n := 1) rfl
  have hall := (hm.trans e2).trans hm2
  have hloop : dqLoop next bf t.st (('"' :: (x ++ '"' :: r)).length + 1) [] [] (t.adv (byteLen c!"\"")) = .ok (bs, []) (t0.adv 1) := by
    rw [e1, dqLoop_stop next bf t.st (c := '"') e2.at' (by decide)]
    simp only [List.head?_cons]
    exact (bind_ok (advanceBytes_at' h2 rfl))
  have hpos : 1 ≤ (t0.adv 1).st.srcPos := Nat.le_add_left 1 _
  let t' := t0.adv 1
  let st : TokSpan := ⟨.k .DoubleQuote, mkSpan t.st.srcPos (t.st.srcPos + 1)⟩
  let en : TokSpan := ⟨.k .DoubleQuote, mkSpan (t'.st.srcPos - 1) t'.st.srcPos⟩
  let rest : List TokSpan := if bs.isEmpty then [en] else [⟨bytesToken bs, mkSpan st.span.start en.span.stop⟩, en]
  refine ⟨mkSpan t.st.srcPos (t.st.srcPos + 1), [] ++ rest ++ t'.queue, t', ?_, hall, ?_⟩
  · unfold matchDqString
    rw [bind_ok (input_at h)]
    rw [if_neg (by
      simp only [byteLen, byteLen_append]
      have h1 : ('"' : Char).utf8Size = 1 := by decide
      omega)]
    tstep (t.st) t
    rw [if_neg (by simp [startsWith]), if_pos (by simp [startsWith])]
    refine (bind_ok (advanceBytes_at' h1 rfl)).trans ?_
    refine (bind_ok hloop).trans ?_
    refine (bind_ok inputPos_at).trans ?_
    refine (bind_ok (subT_le hpos)).trans ?_
    rfl
  · have hq' : t'.queue = [] := hall.queue.trans hq
    rw [hq']
    show (([] ++ (if bs.isEmpty then [en] else [⟨bytesToken bs, mkSpan st.span.start en.span.stop⟩, en]) ++ []) : List TokSpan).map TokSpan.tok = _
    unfold meansTok
    cases bs.isEmpty <;> rfl

theorem dqString_bad (next : T TokSpan) (bf : Nat) {x w : Text} {bs : List Nat} (hx : DqMeans false x bs) (hw : badEscape w) {r : Text}
    (h : At t ('"' :: (x ++ (w ++ r)))) : ∃ p, matchDqString next bf t = .panic p := by
  have h1 : At t (c!"\"" ++ (x ++ (w ++ r))) := h
  have hm := Moved.adv h1
  obtain ⟨w', rfl⟩ : ∃ w', w = '\\' :: w' := by
    rcases hw with rfl | rfl | ⟨k, d, -, rfl, -⟩ | ⟨k, d, e, -, rfl, -⟩ <;> exact ⟨_, rfl⟩
  have hwl : 1 ≤ w'.length := by
    rcases hw with h | h | ⟨k, d, -, h, -⟩ | ⟨k, d, e, -, h, -⟩ <;> cases h <;> simp
  obtain ⟨f', t0, e1, e2, e3⟩ := dqLoop_means next bf t.st hx (('"' :: (x ++ (('\\' :: w') ++ r))).length) [] _ (('\\' :: w') ++ r) (.inr rfl)
    (by simp only [List.length_cons, List.length_append]; omega) hm.at'
  obtain ⟨p, hp⟩ := strEscape_bad hw e2.at' ([] ++ bs)
  refine ⟨p, ?_⟩
  have hloop : dqLoop next bf t.st (('"' :: (x ++ (('\\' :: w') ++ r))).length + 1) [] [] (t.adv (byteLen c!"\"")) = .panic p := by
    rw [e1, dqLoop_stop next bf t.st (c := '\\') (r := w' ++ r) e2.at' (by decide)]
    simp only [List.head?_cons]
    exact bind_panic hp
  unfold matchDqString
  rw [bind_ok (input_at h)]
  rw [if_neg (by
    simp only [byteLen, byteLen_append, List.cons_append]
    have h1 : ('"' : Char).utf8Size = 1 := by decide
    have h2 : ('\\' : Char).utf8Size = 1 := by decide
    omega)]
  tstep (t.st) t
  rw [if_neg (by simp [startsWith]), if_pos (by simp [startsWith])]
  refine (bind_ok (advanceBytes_at' h1 rfl)).trans ?_
  exact bind_panic hloop

variable {d : Nat} {g rest : Text}

/-- The first token of such a literal. -/
theorem step_means {x : Text} {bs : List Nat} {prop : Bool} (hg : Blank g) (hat : At t (g ++ ('"' :: (x ++ '"' :: rest))))
    (hm : Mode t prop d) (hq : t.queue = []) (hx : DqMeans false x bs) (n : Nat) :
    ∃ sp q t', nextToken (n + 2) t = .ok ⟨.k .DoubleQuote, sp⟩ t' ∧ At t' rest ∧ t'.st.state = .emitQueue ∧
      t'.st.stack = List.replicate (d + 1) .inScripting ∧ t'.queue = q ∧ q.map TokSpan.tok = meansTok bs ++ [.k .DoubleQuote] := by
  have main : ∀ (t : Tz) (g : Text) (n : Nat), Blank g → At t (g ++ ('"' :: (x ++ '"' :: rest))) → Mode t false d → t.queue = [] →
      ∃ sp q t', nextToken (n + 1) t = .ok ⟨.k .DoubleQuote, sp⟩ t' ∧ At t' rest ∧ t'.st.state = .emitQueue ∧
      t'.st.stack = List.replicate (d + 1) .inScripting ∧ t'.queue = q ∧ q.map TokSpan.tok = meansTok bs ++ [.k .DoubleQuote] := by
    intro t g n hg hat hm hq
    have hmv := Moved.ws hat hg.all
    have h := hmv.at'
    obtain ⟨sp, q, t', e1, e2, e3⟩ := dqString_means (nextToken n) n hx h (hmv.queue.trans hq)
    have hall := hmv.trans e2
    refine ⟨sp, q, { t' with queue := q, st := t'.st.push .emitQueue }, next_scripting hm.state ((scripting_start _ _ hat hg.all rfl (by simp)).trans ?_), hall.at', rfl, ?_, rfl, e3⟩
    · rw [orElse_none (hereNowDoc_none _ _ h rfl rfl), orElse_none (show bnum _ = _ from prefixedNum_none _ _ _ h rfl),
        orElse_none (show hnum _ = _ from prefixedNum_none _ _ _ h rfl),
        orElse_none (onum_none h (by simp) (by intro c hc; cases hc; decide) rfl), orElse_ok e1]
    · show t'.st.state :: t'.st.stack = _
      rw [hall.state.trans hm.state, hall.stack.trans hm.stack]
      rfl
  cases prop with
  | false => exact main t g (n + 1) hg hat hm hq
  | true =>
    obtain ⟨t', ht, hat', hm', hq', hp'⟩ := lexProp_other hg hat hm rfl (by intro c hc; cases hc; exact .inl (by decide)) rfl (n + 1)
    obtain ⟨sp, q, t'', h1, h2⟩ := main t' [] n nofun hat' hm' (hq'.trans hq)
    exact ⟨sp, q, t'', ht.trans h1, h2⟩

theorem step_bad {x w : Text} {bs : List Nat} {prop : Bool} (hg : Blank g) (hat : At t (g ++ ('"' :: (x ++ (w ++ rest)))))
    (hm : Mode t prop d) (hx : DqMeans false x bs) (hw : badEscape w) (n : Nat) : ∃ p, nextToken (n + 2) t = .panic p := by
  have main : ∀ (t : Tz) (g : Text) (n : Nat), Blank g → At t (g ++ ('"' :: (x ++ (w ++ rest)))) → Mode t false d → ∃ p, nextToken (n + 1) t = .panic p := by
    intro t g n hg hat hm
    have hmv := Moved.ws hat hg.all
    have h := hmv.at'
    obtain ⟨p, e⟩ := dqString_bad (nextToken n) n hx hw h
    refine ⟨p, ?_⟩
    have hs : inScriptingToken (nextToken n) n t = .panic p := by
      refine (scripting_start _ _ hat hg.all rfl (by simp)).trans ?_
      rw [orElse_none (hereNowDoc_none _ _ h rfl rfl), orElse_none (show bnum _ = _ from prefixedNum_none _ _ _ h rfl),
        orElse_none (show hnum _ = _ from prefixedNum_none _ _ _ h rfl),
        orElse_none (onum_none h (by simp) (by intro c hc; cases hc; decide) rfl)]
      unfold T.orElse
      rw [e]
    unfold nextToken
    rw [hm.state]
    simp only [Bool.false_eq_true, if_false]
    rw [hs]
  cases prop with
  | false => exact main t g (n + 1) hg hat hm
  | true =>
    obtain ⟨t', ht, hat', hm', -⟩ := lexProp_other hg hat hm rfl (by intro c hc; cases hc; exact .inl (by decide)) rfl (n + 1)
    obtain ⟨p, h1⟩ := main t' [] n nofun hat' hm'
    exact ⟨p, ht.trans h1⟩

/-- A script with such a literal in it. -/
theorem means_tokens (is js : List Item) {d d' : Nat} {x : Text} {bs : List Nat} (hx : DqMeans false x bs)
    (h : Apart false is (c!"\"" ++ x ++ c!"\"" ++ render js)) (hb : braces 0 is = some d) (h' : Apart false js []) (hb' : braces d js = some d') :
    ∃ n ts, spansOf n (c!"<?php" ++ render is ++ c!"\"" ++ x ++ c!"\"" ++ render js) = some ts ∧
      ts.map TokSpan.tok = .k .OpenTag :: (toks false is ++ .k .DoubleQuote :: (meansTok bs ++ .k .DoubleQuote :: toks false js)) := by
  have hsrc : c!"<?php" ++ render is ++ c!"\"" ++ x ++ c!"\"" ++ render js = c!"<?php" ++ (render is ++ (c!"\"" ++ x ++ c!"\"" ++ render js)) := by simp
  rw [hsrc]
  generalize htl : c!"\"" ++ x ++ c!"\"" ++ render js = tail at h ⊢
  have htl' : tail = '"' :: (x ++ '"' :: render js) := by rw [← htl]; simp
  let k := (toks false is).length + (meansTok bs).length + (toks false js).length
  obtain ⟨sp, t1, h1, h2, h3, hp⟩ := open_tag (render is ++ tail) (k + 9)
  have hi := inv_new (c!"<?php" ++ (render is ++ tail))
  obtain ⟨out, t2, g1, g2, g3, g4, g5⟩ := run_items is tail (k + 7) d t1 false 0 (.of_at h2) ⟨hi.next h1, hp, .inl h3⟩ h hb [⟨.k .OpenTag, sp⟩]
  have hlen : out.length = (toks false is).length := by rw [← g1, List.length_map]
  rw [htl'] at g3
  obtain ⟨g0, hg0, hat⟩ := Ahead.lex (c := '"') (by decide) g3
  obtain ⟨t3, m, e, hm3, hq3, hat3, hi3, hp3⟩ := g4.enter (k + 7)
  obtain ⟨sp2, q, t4, f1, f2, f3, f4, f5, f6⟩ := step_means hg0 (hat3 _ hat) hm3 hq3 hx m
  have hpost := hi3.post f1
  have hn := e.trans f1
  have hi4 := g4.inv.next hn
  have hl : LG { t4 with queue := [] } ∨ (Gap { t4 with queue := [] } ∧ (t4.st.state = .inScripting ∨ t4.st.state = .emitQueue)) := by
    rcases hi4.lines with h | ⟨⟨s, w, r, h1, h2, h3, h4, h5⟩, hs⟩
    · exact .inl ⟨h.pos, h.lines, h.fin⟩
    · exact .inr ⟨⟨s, w, r, h1, h2, h3, h4, h5⟩, hs⟩
  have hi5 : Inv { t4 with queue := [] } := ⟨hl, hi4.stk, hi4.head, fun _ => rfl, nofun, hi4.one, hi4.one'⟩
  have hpos := g4.pos
  have f2' : At ({ t4 with queue := [] } : Tz) (render js ++ []) := by rw [List.append_nil]; exact f2
  obtain ⟨out', t6, k1, k2, k3, k4, k5⟩ := run_items js [] (k + 7) d' { t4 with queue := [] } false d (.of_at f2')
    ⟨hi5, Nat.le_trans (by omega) hpost.le, .inr ⟨rfl, f3, rfl, f4⟩⟩ h' hb' ([⟨.k .OpenTag, sp⟩] ++ out ++ [⟨.k .DoubleQuote, sp2⟩] ++ q)
  have hlen' : out'.length = (toks false js).length := by rw [← k1, List.length_map]
  have hlq : q.length = (meansTok bs).length + 1 := by
    have := congrArg List.length f6
    simpa using this
  have hqe : ∀ y ∈ q, y.tok ≠ .k .End := by
    intro y hy
    have : y.tok ∈ q.map TokSpan.tok := List.mem_map_of_mem hy
    rw [f6] at this
    rcases List.mem_append.1 this with h | h
    · unfold meansTok at h
      split at h
      · cases h
      · rw [List.mem_singleton.1 h]
        unfold bytesToken
        split <;> nofun
    · rw [List.mem_singleton.1 h]; nofun
  obtain ⟨sp7, t7, he⟩ := end_items k3 k4 (k + 7)
  refine ⟨k + 10, [⟨.k .OpenTag, sp⟩] ++ out ++ [⟨.k .DoubleQuote, sp2⟩] ++ q ++ out', ?_, by simp [g1, f6, k1]⟩
  unfold spansOf
  have s1 : lexAll (k + 10) (k + 10) (Tz.new (c!"<?php" ++ (render is ++ tail))) [] = lexAll (k + 10) (k + 9) t1 [⟨.k .OpenTag, sp⟩] :=
    lexAll_step (ts := ⟨.k .OpenTag, sp⟩) h1 nofun
  have s2 := g2 (k + 9 - out.length)
  rw [show k + 9 - out.length + out.length = k + 9 by omega] at s2
  have hk9 : k + 9 - out.length = (7 + out'.length) + q.length + 1 := by omega
  have s3 : lexAll (k + 10) (k + 9 - out.length) t2 ([⟨.k .OpenTag, sp⟩] ++ out) =
      lexAll (k + 10) (7 + out'.length) { t4 with queue := [] } ([⟨.k .OpenTag, sp⟩] ++ out ++ [⟨.k .DoubleQuote, sp2⟩] ++ q) := by
    rw [hk9, lexAll_step hn nofun, lexAll_queue q hqe t4 hi4 f3 f5]
  have s4 := k2 7
  have s5 : lexAll (k + 10) 7 t6 ([⟨.k .OpenTag, sp⟩] ++ out ++ [⟨.k .DoubleQuote, sp2⟩] ++ q ++ out') =
      .ok ([⟨.k .OpenTag, sp⟩] ++ out ++ [⟨.k .DoubleQuote, sp2⟩] ++ q ++ out', t7) := by
    unfold lexAll
    rw [he]
    rfl
  rw [s1.trans (s2.trans (s3.trans (s4.trans s5)))]

end Pico
