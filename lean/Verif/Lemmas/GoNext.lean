import Verif.Lemmas.GoBlk
/-! # The tokenizer reads every source that consists of pieces -/
namespace Pico
open T

section
variable {t : Tz}

theorem Laid.stands {b i : Text} {ts : List Token} (h : Laid .script (b ++ i) ts) (hb : Blank b) (hi : ∀ c, i.head? = some c → ¬ isBlank c = true)
    (hne : i ≠ []) : Stands i := by
  generalize hs : b ++ i = s at h
  cases h with
  | scriptEnd hb' =>
    exfalso
    cases i with
    | nil => exact hne rfl
    | cons c i =>
      subst hs
      exact hi c rfl (blank_all hb' c (by simp))
  | @closeTag q' _ b' hb' h' =>
    have e1 : b ++ i = b' ++ ('?' :: '>' :: q') := by simpa using hs
    obtain ⟨rfl, e2⟩ := blank_unique hb hb' hi (noBlank_of rfl) e1
    exact .inr ⟨_, e2.symm⟩
  | @piece q' _ b' w' ks' hb' hw' h' =>
    have e1 : b ++ i = b' ++ (w' ++ q') := by simpa using hs
    obtain ⟨rfl, e2⟩ := blank_unique hb hb' hi hw'.first.1 e1
    exact .inl ⟨w', ks', _, e2, hw'⟩

/-- The rest of a script behind blanks. -/
theorem Laid.unblank {b s : Text} {ts : List Token} (h : Laid .script (b ++ s) ts) (hb : Blank b) : Laid .script s ts := by
  obtain ⟨c, i, rfl, hc, hi⟩ := blank_split s
  have hbc : Blank (b ++ c) := fun d hd => by
    rcases List.mem_append.1 hd with h | h
    · exact hb d h
    · exact blank_of hc d h
  have hi : ∀ c, i.head? = some c → ¬ isBlank c = true := fun c hc h => by
    rw [hc] at hi
    simp [h] at hi
  rw [← List.append_assoc] at h
  generalize hs : (b ++ c) ++ i = s at h
  cases h with
  | scriptEnd hb' =>
    subst hs
    exact .scriptEnd fun d hd => hb' d (by simp only [List.append_assoc]; exact List.mem_append_right _ hd)
  | @closeTag q' _ b' hb' h' =>
    have e1 : (b ++ c) ++ i = b' ++ ('?' :: '>' :: q') := by simpa using hs
    obtain ⟨_, rfl⟩ := blank_unique hbc hb' hi (noBlank_of rfl) e1
    have := Laid.closeTag c (blank_of hc) h'
    simpa using this
  | @piece q' _ b' w' ks' hb' hw' h' =>
    have e1 : (b ++ c) ++ i = b' ++ (w' ++ q') := by simpa using hs
    obtain ⟨_, rfl⟩ := blank_unique hbc hb' hi hw'.first.1 e1
    have := Laid.piece c w' ks' (blank_of hc) hw' h'
    simpa using this

theorem ascii_ident {w : Text} (h : isIdentifier w = true) : ascii w = true := by
  cases w with
  | nil => rfl
  | cons c w =>
    simp only [isIdentifier, Bool.and_eq_true, List.all_eq_true] at h
    unfold ascii
    rw [List.all_eq_true]
    intro d hd
    rw [decide_eq_true_eq]
    rcases List.mem_cons.1 hd with rfl | hd
    · exact isIdChar_ascii h.1.1
    · exact isIdChar_ascii (h.2 d hd)

/-- No piece begins with a name that is not ASCII. -/
theorem scrap_ascii {v r w r' : Text} {ks : List Token} (h : Scrap w ks r') (hv : IsLabel v) (hr : endsIdentifier r = true)
    (e : v ++ r = w ++ r') : ascii v = true := by
  have lab : ∀ {w' s : Text}, isIdentifier w' = true → endsIdentifier s = true → v ++ r = w' ++ s → ascii v = true := by
    intro w' s h1 h2 e
    obtain ⟨rfl, _⟩ := label_unique hv (identifier_label h1) hr h2 e
    exact ascii_ident h1
  have hf := h.form
  rw [← e] at hf
  cases v with
  | nil => exact absurd rfl hv.1
  | cons c v =>
    have f11 : Form w ks r' 11 → ascii (c :: v) = true := by
      rintro (⟨h1, h2, _⟩ | ⟨b, rfl, h1, h2, _⟩)
      · exact lab h1 h2 e
      · by_cases hb : b = []
        · subst hb
          exact lab (w' := c!"yieldfrom") (by decide) (h2 rfl) e
        · refine lab (w' := c!"yield") (s := b ++ (c!"from" ++ r')) (by decide) ?_ (by simpa using e)
          cases b with
          | nil => exact absurd rfl hb
          | cons d b => rcases h1 d (by simp) with rfl | rfl | rfl | rfl <;> rfl
    have hd := hv.2.1 c rfl
    rw [List.cons_append] at hf
    rcases hv.2.2 c (by simp) with hc | hc
    · by_cases hb : c = 'b'
      · subst hb
        have one : ∀ {q : Char}, [q] <+: v ++ r → isLabelChar q = false → ascii ('b' :: v) = true := by
          rintro q ⟨s, hs⟩ hq
          cases v with
          | nil => rfl
          | cons d v =>
            injection hs with hs _
            subst hs
            rw [hv.lab q (by simp)] at hq
            cases hq
        unfold lead at hf
        simp only [show ('b' = '$') = False by simp, show ('b' = '(') = False by simp, show ('b' = '#') = False by simp,
          show ('b' = '/') = False by simp, show ('b' = '\'') = False by simp, show ('b' = '"') = False by simp,
          show ('b' = '`') = False by simp, show ('b' = '<') = False by simp, show ('b' = '.') = False by simp, if_false, if_true] at hf
        split at hf
        · rename_i h; exact one h (by rfl)
        · split at hf
          · rename_i h; exact one h (by rfl)
          · split at hf
            · rename_i h
              exact one (List.IsPrefix.trans ⟨c!"<<", rfl⟩ h) (by rfl)
            · exact f11 hf
      · rw [lead_id hc hd hb] at hf
        exact f11 hf
    · exfalso
      have ne : ∀ d : Char, d.toNat < 0x80 → c ≠ d := by
        rintro d hd rfl; omega
      have hid : ¬ isIdChar c = true := by
        intro h
        have := isIdChar_ascii h
        omega
      unfold lead at hf
      dsimp only at hf
      rw [if_neg (ne _ (by decide)), if_neg (ne _ (by decide)), if_neg (ne _ (by decide)), if_neg (ne _ (by decide)), if_neg (ne _ (by decide)),
        if_neg (ne _ (by decide)), if_neg (ne _ (by decide)), if_neg (ne _ (by decide)), if_neg (ne _ (by decide)), if_neg (ne _ (by decide)),
        if_neg (by rw [hd]; nofun), if_neg hid] at hf
      obtain ⟨k, h1, _⟩ := hf
      have hall : ∀ p ∈ symbols, p.1 ≠ [] ∧ p.1.all (fun c => decide (c.toNat < 0x80)) = true := by decide +kernel
      have := hall _ h1
      cases w with
      | nil => exact this.1 rfl
      | cons d w =>
        injection e with e _
        subst e
        have := List.all_eq_true.1 this.2 c (by simp)
        simp at this
        omega

/-- As many braces are closed as opened. -/
def Evened (ts : List Token) : Prop := (ts.filter closesBrace).length = (ts.filter opensBrace).length

theorem Evened.append {a b : List Token} (ha : Evened a) (hb : Evened b) : Evened (a ++ b) := by
  unfold Evened at *
  simp only [List.filter_append, List.length_append]
  omega

theorem Evened.of {ts : List Token} (h : ∀ k ∈ ts, isBrace k = false) : Evened ts := by
  unfold Evened
  rw [List.filter_eq_nil_iff.2, List.filter_eq_nil_iff.2]
  · intro k hk; have := h k hk; simp only [isBrace, Bool.or_eq_false_iff] at this; simp [this.1]
  · intro k hk; have := h k hk; simp only [isBrace, Bool.or_eq_false_iff] at this; simp [this.2]

theorem textPart_even {bs : List Nat} {ts : List Token} (h : TextPart bs ts) : Evened ts := by
  cases h with
  | none => rfl
  | some _ h => cases h <;> rfl

theorem identifierToken_even (w : Text) : isBrace (identifierToken w) = false := by
  unfold identifierToken
  cases h : reservedWords.lookup w with
  | none => rfl
  | some k =>
    have : ∀ p ∈ reservedWords, isBrace (.k p.2) = false := by decide
    exact this _ (lookup_mem h)

theorem Bit.even {w r : Text} {k : Token} (h : Bit w k r) : isBrace k = false := by
  cases h with
  | word h _ _ _ _ => exact identifierToken_even w
  | symbol h hk => exact hk
  | cast b w b' k hb h =>
    have : ∀ p ∈ castWords, isBrace (.k p.2) = false := by decide
    exact this _ h
  | _ => rfl

/-- AfterQ the opening brace one more is closed than opened. -/
theorem Inner.even {g : Region} {s r : Text} {ts : List Token} (h : Inner g s ts r) {k : Token} (hk : opensBrace k = true) : Evened (k :: ts) := by
  have hc : closesBrace k = false := by
    cases hc : closesBrace k with
    | false => rfl
    | true =>
      have : k = .k .CurlyBracesClose := by simpa [closesBrace] using hc
      subst this
      cases hk
  have skip : ∀ {x ts}, isBrace x = false → Evened (k :: ts) → Evened (k :: x :: ts) := by
    intro x ts hx h
    simp only [isBrace, Bool.or_eq_false_iff] at hx
    unfold Evened at *
    simp only [List.filter_cons, hk, hc, hx.1, hx.2] at h ⊢
    exact h
  induction h with
  | close => unfold Evened; simp only [List.filter_cons, hk, hc]; rfl
  | piece b w k hb hw h ih => exact skip hw.even ih
  | propName b w hb hw he h ih => exact skip rfl ih
  | propArrow b hb h ih => exact skip rfl ih
  | propNone b hb hr hn ha h ih => exact ih

theorem parts_even {q : Quote} {rest : Text} {bs : List Nat} {fs : List Snip} {ts : List Token} (h : Parts bs fs ts)
    (hf : FragsOk q fs rest) : Evened ts := by
  induction h with
  | nil h => exact textPart_even h
  | plain _ _ ih => exact ih hf.2
  | esc _ _ _ ih => exact ih hf.2
  | var _ hb _ ih => exact (textPart_even hb).append (.append (a := [_]) rfl (ih hf.2))
  | prop _ _ hb _ ih => exact (textPart_even hb).append (.append (a := [_, _, _]) rfl (ih hf.2))
  | block _ is hb _ ih => exact (textPart_even hb).append (.append (a := .k .CurlyBracesOpen :: is) ((Snip.inner (.inl hf.1)).even rfl) (ih hf.2))
  | dollar _ is hb _ ih => exact (textPart_even hb).append (.append (a := .k .DollarCurlyBracesOpen :: is) ((Snip.inner (.inr hf.1)).even rfl) (ih hf.2))

theorem Scrap.even {w r : Text} {k : Token} {ks : List Token} (h : Scrap w (k :: ks) r) : Evened ks := by
  generalize hq : k :: ks = q at h
  cases h with
  | quoted p fs ts hp h hk => cases hq; exact (parts_even hk h).append rfl
  | back fs ts h hk => cases hq; exact (parts_even hk h).append rfl
  | doc p w ks hp h =>
    cases h with
    | here b q tag nl fs ts hb hq' ht hn h hk he => cases hq; exact (parts_even hk h).append rfl
    | now => cases hq; rfl
  | _ => cases hq; rfl

/-- The braces behind the queue. -/
def AfterQ (t : Tz) (ts : List Token) : Prop := ∀ rs, ts = t.queue.map TokSpan.tok ++ rs → Closed (depth t.st) rs

/-- The token read is the first of those to come. -/
def Fwd (t : Tz) (x : TokSpan) (t' : Tz) : Prop := ∀ ts, Rest t ts →
  (x.tok = .k .End ∧ ts = []) ∨ ∃ ts', ts = x.tok :: ts' ∧ Rest t' ts' ∧ (Busy t → Busy t') ∧ Evened (t'.queue.map TokSpan.tok)

theorem ScriptL.fwd {t' : Tz} {x : TokSpan} (hs : Scr t) (h : ScriptL t x t') : Fwd t x t' := by
  rintro ts ⟨rs, s, rfl, ha, hL⟩
  rw [hs.queue, List.map_nil, List.nil_append]
  rw [hs.state] at hL
  have hL : Laid .script s rs := hL
  rcases h with ⟨h1, h2, b, hb, ha'⟩ | ⟨b, u, s', hl, hb, h⟩
  · obtain rfl := ha.unique ha'
    exact .inl ⟨h1, hL.unique (.scriptEnd hb) rfl⟩
  · have es := ha.unique hl.src
    subst es
    have hL' := hL.unblank hb
    have hbz : Busy t → Busy t' := fun hz => h.keep (hl.mv.busy hz)
    rcases h.read with ⟨r, h1, h2, h3, h4, h5⟩ | ⟨w, c, r, h⟩ | ⟨v, r, h1, h2, h3, h4, h5⟩
    · have es := hl.mv.at'.unique h1
      subst es
      generalize hq : c!"?>" ++ r = q at hL'
      cases hL' with
      | scriptEnd hb' => subst hq; cases blank_all hb' '?' (by simp)
      | @closeTag q' _ b' hb' h' =>
        have e1 : [] ++ ('?' :: '>' :: r) = b' ++ ('?' :: '>' :: q') := by simpa using hq
        obtain ⟨rfl, e2⟩ := blank_unique (by nofun) hb' (noBlank_of rfl) (noBlank_of rfl) e1
        injection e2 with _ e2
        injection e2 with _ e2
        subst e2
        refine .inr ⟨_, by rw [h3], ⟨_, r, by rw [h5]; rfl, h2, ?_⟩, hbz, by rw [h5]; rfl⟩
        rw [h4]
        exact h'
      | @piece q' _ b' w' ks' hb' hw' h' =>
        have e1 : [] ++ ('?' :: '>' :: r) = b' ++ (w' ++ q') := by simpa using hq
        obtain ⟨rfl, e2⟩ := blank_unique (by nofun) hb' (noBlank_of rfl) hw'.first.1 e1
        exact absurd ⟨_, e2⟩ hw'.first.2.2
    · have es := hl.mv.at'.unique h.src
      subst es
      have hf := h.piece.first
      generalize hq : w ++ (c ++ r) = q at hL' hf
      cases hL' with
      | scriptEnd hb' =>
        cases q with
        | nil => exact absurd rfl hf.2.1
        | cons a q => exact absurd (blank_all hb' a (by simp)) (hf.1 a rfl)
      | @closeTag q' _ b' hb' h' =>
        have e1 : [] ++ (w ++ (c ++ r)) = b' ++ ('?' :: '>' :: q') := by simpa using hq
        obtain ⟨rfl, e2⟩ := blank_unique (by nofun) hb' h.piece.first.1 (noBlank_of rfl) e1
        exact absurd ⟨_, e2.symm⟩ h.piece.first.2.2
      | @piece q' _ b' w' ks' hb' hw' h' =>
        have e1 : [] ++ (w ++ (c ++ r)) = b' ++ (w' ++ q') := by simpa using hq
        obtain ⟨rfl, e2⟩ := blank_unique (by nofun) hb' h.piece.first.1 hw'.first.1 e1
        obtain ⟨rfl, rfl, rfl⟩ := h.piece.unique hw' e2
        refine .inr ⟨_, rfl, ⟨_, r, rfl, h.at', ?_⟩, hbz, h.piece.even⟩
        rcases h.mode with ⟨m1, m2, m3, m4⟩ | ⟨m1, m2⟩
        · rw [m4, m1, m2, if_pos (by rfl)] at h'
          rw [m3]
          exact h'
        · rw [if_neg (by intro h; injection h with h; exact m1 h)] at h'
          rw [regionOf_script m2]
          exact h'.unblank h.blank
    · exfalso
      have es := hl.mv.at'.unique h1
      subst es
      have hne : v ++ r ≠ [] := fun h => h2.1 (List.append_eq_nil_iff.1 h).1
      rcases Laid.stands (b := []) hL' (by nofun) (noBlank_label h2) hne with ⟨w, ks, r', e, h⟩ | ⟨q, e⟩
      · rw [scrap_ascii h h2 h3 e] at h5
        cases h5
      · obtain ⟨c, s, e', h1, _⟩ := h2.head (r := r)
        have e : c!"?>" ++ q = v ++ r := e
        rw [e'] at e
        injection e with e _
        subst e
        cases h1

theorem HtmlL.fwd {t' : Tz} {x : TokSpan} (hs : t.st.state = .initial) (hq : t.queue = []) (h : HtmlL t x t') : Fwd t x t' := by
  rintro ts ⟨rs, s, rfl, ha, hL⟩
  rw [hq, List.map_nil, List.nil_append]
  rw [hs] at hL
  have hL : Laid .html s rs := hL
  obtain ⟨hq', hz, h⟩ := h
  rcases h with ⟨h1, h2⟩ | ⟨s', r, h1, h2, h3, h4, h5, h6, h7⟩ | ⟨w, k, r, h1, h2, h3, h4, h5, h6⟩
  · obtain rfl := ha.unique h2
    exact .inl ⟨h1, hL.unique .htmlEnd rfl⟩
  · obtain rfl := ha.unique h1
    have hz := hz (by rw [h3]; nofun)
    generalize hg : s' ++ r = q at hL
    cases hL with
    | htmlEnd => exact absurd (List.append_eq_nil_iff.1 hg).1 h4
    | html s2 hne' hs' he' h' =>
      obtain ⟨rfl, rfl⟩ := html_unique h5 hs' h6 he' hg
      exact .inr ⟨_, by rw [h3], ⟨_, r, by rw [hq']; rfl, h2, by rw [h7]; exact h'⟩, hz, by rw [hq']; rfl⟩
    | openTag w k hw _ _ => exact (html_tag h4 h5 h6 hw hg).elim
  · obtain rfl := ha.unique h1
    have hk : ∀ p ∈ openTags, p.2 ≠ .End := by decide
    have hz := hz (by rw [h3]; intro h; cases h; exact hk _ h4 rfl)
    generalize hg : w ++ r = q at hL
    cases hL with
    | htmlEnd =>
      obtain ⟨v, hv⟩ := openTags_keys.2 _ h4
      dsimp only at hv
      subst hv
      cases hg
    | html s2 hne' hs' he' h' => exact (html_tag hne' hs' he' h4 hg.symm).elim
    | @openTag rest' _ w' k' hw' hm' h' =>
      have p' : w' <+: w ++ r := by rw [hg]; exact List.prefix_append _ _
      have p : w <+: w' ++ rest' := by rw [← hg]; exact List.prefix_append _ _
      have l1 := h5 _ hw' p'
      have l2 := hm' _ h4 p
      have := prefix_both (List.prefix_append w _) p' (by dsimp only at l1 l2; omega)
      subst this
      have := openTags_keys.1 _ h4 _ hw' rfl
      cases this
      have := List.append_cancel_left hg
      subst this
      exact .inr ⟨_, by rw [h3], ⟨_, r, by rw [hq']; rfl, h2, by rw [h6]; exact h'⟩, hz, by rw [hq']; rfl⟩

theorem label_noArrow {w r r' : Text} (h : IsLabel w) : w ++ r ≠ c!"->" ++ r' := by
  obtain ⟨c, s, e, h1, _⟩ := h.head (r := r)
  rw [e]
  intro h
  injection h with h _
  subst h
  cases h1

theorem label_identifier {w r : Text} (h : IsLabel w) : ¬ noIdentifier (w ++ r) := by
  obtain ⟨c, s, e, h1, h2⟩ := h.head (r := r)
  rw [e]
  intro h
  have := noIdentifier_head h
  rw [h1] at this
  rw [h2] at this
  cases this

theorem PropL.fwd {t' : Tz} {x : TokSpan} (hs : t.st.state = .lookingForProperty) (hq : t.queue = []) (h : PropL t x t') : Fwd t x t' := by
  rintro ts ⟨rs, s, rfl, ha, hL⟩
  rw [hq, List.map_nil, List.nil_append]
  rw [hs] at hL
  have hL : Laid .prop s rs := hL
  obtain ⟨hq', hz, _, b, w, r, h1, hb, h2, h⟩ := h
  obtain rfl := ha.unique h1
  have ar : ∀ s : Text, ∀ d, (c!"->" ++ s).head? = some d → ¬ isBlank d = true := fun s => noBlank_of rfl
  rcases h with ⟨rfl, h3, h4, _⟩ | ⟨h3, h4, h5, h6, _⟩
  · generalize hg : b ++ c!"->" ++ r = q at hL
    rw [List.append_assoc] at hg
    cases hL with
    | propName b' w' hb' hw' he' h' =>
      rw [List.append_assoc] at hg
      obtain ⟨_, e⟩ := blank_unique hb hb' (ar r) (noBlank_label hw') hg
      exact absurd e.symm (label_noArrow hw')
    | propArrow b' hb' h' =>
      rw [List.append_assoc] at hg
      obtain ⟨rfl, e⟩ := blank_unique hb hb' (ar r) (ar _) hg
      have := List.append_cancel_left e
      subst this
      exact .inr ⟨_, by rw [h3], ⟨_, r, by rw [hq']; rfl, h2, by rw [h4]; exact h'⟩, hz, by rw [hq']; rfl⟩
    | propNone b' hb' hr' hn' ha' h' =>
      obtain ⟨_, e⟩ := blank_unique hb hb' (ar r) (noBlank_starts hr') hg
      exact absurd ⟨r, e⟩ ha'
  · generalize hg : b ++ w ++ r = q at hL
    rw [List.append_assoc] at hg
    cases hL with
    | propName b' w' hb' hw' he' h' =>
      rw [List.append_assoc] at hg
      obtain ⟨_, e⟩ := blank_unique hb hb' (noBlank_label h3) (noBlank_label hw') hg
      obtain ⟨rfl, rfl⟩ := label_unique h3 hw' h4 he' e
      exact .inr ⟨_, by rw [h5], ⟨_, r, by rw [hq']; rfl, h2, by rw [h6]; exact h'⟩, hz, by rw [hq']; rfl⟩
    | propArrow b' hb' h' =>
      rw [List.append_assoc] at hg
      obtain ⟨rfl, e⟩ := blank_unique hb hb' (noBlank_label h3) (ar _) hg
      exact absurd e (label_noArrow h3)
    | propNone b' hb' hr' hn' ha' h' =>
      obtain ⟨_, e⟩ := blank_unique hb hb' (noBlank_label h3) (noBlank_starts hr') hg
      rw [← e] at hn'
      exact absurd hn' (label_identifier h3)

theorem PropN.rest {u : Tz} {k : List LexState} {ts : List Token} (hs : t.st.state = .lookingForProperty) (hq : t.queue = []) (h : PropN t u k)
    (hr : Rest t ts) : Rest { u with st := { u.st with restart := false } } ts := by
  obtain ⟨rs, s, rfl, ha, hL⟩ := hr
  rw [hs] at hL
  have hL : Laid .prop s rs := hL
  obtain ⟨hc, hq', hs', hk', hr, b, r, h1, h2, h3, h4, h5, h6⟩ := h
  obtain rfl := ha.unique h1
  refine ⟨rs, r, by rw [hq, hq'], h3, ?_⟩
  show Laid (regionOf u.st.state) r rs
  rw [hs']
  show Laid .script r rs
  generalize hg : b ++ r = q at hL
  cases hL with
  | propName b' w' hb' hw' he' h' =>
    rw [List.append_assoc] at hg
    obtain ⟨_, e⟩ := blank_unique h2 hb' (noBlank_starts h4) (noBlank_label hw') hg
    rw [e] at h5
    exact absurd h5 (label_identifier hw')
  | propArrow b' hb' h' =>
    rw [List.append_assoc] at hg
    obtain ⟨_, e⟩ := blank_unique h2 hb' (noBlank_starts h4) (noBlank_of rfl) hg
    exact absurd ⟨_, e.symm⟩ h6
  | propNone b' hb' hr' hn' ha' h' =>
    obtain ⟨_, rfl⟩ := blank_unique h2 hb' (noBlank_starts h4) (noBlank_starts hr') hg
    exact h'

/-- No end marker stands among the tokens. -/
theorem Laid.noEnd {g : Region} {s : Text} {ts : List Token} (h : Laid g s ts) : Token.k .End ∉ ts := by
  induction h with
  | htmlEnd => nofun
  | html _ _ _ _ _ ih => simpa using ih
  | openTag w k hw _ _ ih =>
    have : ∀ p ∈ openTags, p.2 ≠ .End := by decide
    have := this _ hw
    simp only [List.mem_cons, Token.k.injEq, not_or]
    exact ⟨fun h => this h.symm, ih⟩
  | scriptEnd => nofun
  | closeTag _ _ _ ih => simpa using ih
  | piece b w ks hb hw _ ih => simpa using ⟨hw.noEnd, ih⟩
  | propName _ _ _ _ _ _ ih => simpa using ih
  | propArrow _ _ _ ih => simpa using ih
  | propNone _ _ _ _ _ _ ih => exact ih

/-! ### Without aborts -/

theorem initial_ok {i : Text} (hi : At t i) : ∃ x t', initialToken t = .ok x t' := by
  unfold initialToken
  rw [bind_ok (input_at hi)]
  by_cases he : i.isEmpty = true
  · rw [if_pos he]
    exact ⟨_, _, rfl⟩
  rw [if_neg he]
  have hne : i ≠ [] := by rintro rfl; exact he rfl
  show ∃ x t', (matchFirst tagTable <||> _) t = .ok x t'
  cases hf : findEntry tagTable i with
  | some e =>
    obtain ⟨h1, h2, h3⟩ := tagTable_kinds e (List.mem_of_find?_eq_some hf)
    exact ⟨_, _, orElse_ok (matchFirst_some tagTable (fun e he => (tagTable_kinds e he).2.2) hi hf (by rw [h2]; rfl))⟩
  | none =>
    rw [orElse_none (matchFirst_none tagTable hi hf), bind_ok (input_at hi)]
    have fin : ∀ s r, i = s ++ r → s ≠ [] → ∃ x t', (do
        if byteLen s != 0 then
          let p ← inputPos
          let s' ← advanceBytes (byteLen s)
          return (⟨.inlineHtml s', mkSpan p (p + byteLen s)⟩ : TokSpan)
        else endToken : T TokSpan) t = .ok x t' := by
      rintro s r rfl hsne
      have : (byteLen s != 0) = true := by
        have := length_le_byteLen s
        have : 0 < s.length := List.length_pos_iff.2 hsne
        simp
        omega
      rw [if_pos this, bind_ok inputPos_at, bind_ok (advanceBytes_at' hi rfl)]
      exact ⟨_, _, rfl⟩
    cases hb : beforeSub c!"<?" i with
    | none => exact fin i [] (by simp) hne
    | some s =>
      obtain ⟨h1, r, hr⟩ := beforeSub_inv hb
      refine fin s _ hr ?_
      rintro rfl
      have h2 := find_none_prefix (s := c!"<?") (by rw [hr]; exact List.prefix_append _ _) hf
      have h3 : (findEntry tagTable c!"<?").isSome = true := by decide
      rw [h2] at h3
      cases h3

theorem Laid.dot {ts : List Token} (h : Laid .script c!"." ts) : ts = [.k .Dot] := by
  have hs : Scrap c!"." [.k .Dot] [] := by
    refine .symbol (by decide) (fun s _ hp => by simpa using hp.length_le) ?_
    rintro (⟨c, r, h, _⟩ | ⟨q, h⟩ | ⟨q, h⟩ | ⟨r, h, _⟩ | ⟨h, _⟩)
    · cases h
    · cases h
    · cases h
    · cases h
    · exact absurd h (by decide)
  have := Laid.piece [] c!"." [.k .Dot] (by nofun) hs (ts := []) (by exact .scriptEnd nofun)
  exact h.unique this rfl

theorem Laid.brace {r : Text} {ts : List Token} (h : Laid .script (c!"}" ++ r) ts) : ∃ ts', ts = .k .CurlyBracesClose :: ts' := by
  generalize hs : c!"}" ++ r = s at h
  cases h with
  | scriptEnd hb' => subst hs; cases blank_all hb' '}' (by simp)
  | @closeTag q' _ b' hb' h' =>
    have e1 : [] ++ (c!"}" ++ r) = b' ++ ('?' :: '>' :: q') := by simpa using hs
    obtain ⟨rfl, e2⟩ := blank_unique (by nofun) hb' (noBlank_of rfl) (noBlank_of rfl) e1
    cases e2
  | @piece q' _ b' w' ks' hb' hw' h' =>
    have e1 : [] ++ (c!"}" ++ r) = b' ++ (w' ++ q') := by simpa using hs
    obtain ⟨rfl, e2⟩ := blank_unique (by nofun) hb' (noBlank_of rfl) hw'.first.1 e1
    have hf := hw'.form
    have e2 : c!"}" ++ r = w' ++ q' := e2
    rw [← e2, show lead (c!"}" ++ r) = 0 from rfl] at hf
    obtain ⟨k, h1, _, _, rfl⟩ := hf
    have hall : ∀ p ∈ symbols, p.1.head? = some '}' → p.2 = .CurlyBracesClose := by decide
    cases w' with
    | nil => exact absurd rfl (symbols_first _ h1).1
    | cons c w' =>
      injection e2 with e2 _
      subst e2
      have := hall _ h1 rfl
      dsimp only at this
      subst this
      exact ⟨_, rfl⟩

theorem scripting_go {next : T TokSpan} (bfuel : Nat) {s : Text} {ts : List Token} (hs : Scr t) (hb : Gb next bfuel t) (hst : ¬ HasStray t.code)
    (hi : At t s) (hL : Laid .script s ts) (hc : Closed t.st.stack.length ts) (hd : ¬ DotEnd t.code ts) :
    Safe (inScriptingToken next bfuel) t (ScriptL t) (fun _ _ => False) := by
  unfold inScriptingToken
  refine .bind ((whitespace_go hi).cons ?_ (fun _ _ h => h))
  rintro _ u ⟨b, r, rfl, hl, hbb, hr⟩
  refine .bind (.of_ok (input_at hl.mv.at') ?_)
  refine .ite (fun he => ?_) (fun he => ?_)
  · rw [List.isEmpty_iff] at he
    subst he
    unfold endToken
    refine .bind (m := codeLen) (.of_ok rfl ?_)
    exact .inl ⟨rfl, hl.mv.queue.trans hs.queue, b, hbb, by simpa using hl.src⟩
  · refine .bind (sf_inputPos ?_)
    have hne : r ≠ [] := by rintro rfl; exact he rfl
    have hL' := hL.unblank hbb
    refine (rest_go bfuel (hs.moved hl.mv) (hb.moved hl.mv) (by rw [hl.mv.code]; exact hst) hl.mv.at'
      (Laid.stands hL hbb hr hne) ?_ ?_).cons (fun x t' h => .inr ⟨b, _, r, hl, hbb, h⟩) (fun _ _ h => h)
    · rintro rfl
      refine hd ⟨?_, by rw [hL'.dot]; rfl⟩
      obtain ⟨p, hp⟩ := hl.src.code
      exact ⟨p ++ b, by rw [hp]; simp⟩
    · rintro ⟨q, rfl⟩
      obtain ⟨ts', rfl⟩ := Laid.brace hL'
      rw [hl.mv.stack]
      intro h0
      have := hc [.k .CurlyBracesClose] ts' rfl
      rw [h0] at this
      exact absurd this (by decide)

theorem next_go (fuel : Nat) : ∀ t ts, LInv t → Busy t → ¬ HasWild t.code → ¬ HasStray t.code → Rest t ts → AfterQ t ts →
    ¬ DotEnd t.code ts → Safe (nextToken fuel) t (fun x t' => (x.tok = .k .End ∧ ts = []) ∨
      ∃ ts', ts = x.tok :: ts' ∧ Rest t' ts' ∧ Busy t' ∧ (t.queue = [] → Evened (t'.queue.map TokSpan.tok)))
      (fun _ _ => False) := by
  induction fuel with
  | zero => exact fun _ _ _ _ _ _ _ _ _ => trivial
  | succ fuel ih =>
    intro t ts hi hz hb hst hr hc hd
    have fwd : ∀ {x t'}, Fwd t x t' → (x.tok = .k .End ∧ ts = []) ∨
        ∃ ts', ts = x.tok :: ts' ∧ Rest t' ts' ∧ Busy t' ∧ (t.queue = [] → Evened (t'.queue.map TokSpan.tok)) := fun h =>
      (h ts hr).imp id fun ⟨ts', h1, h2, h3, h4⟩ => ⟨ts', h1, h2, h3 hz, fun _ => h4⟩
    cases hs : t.st.state with
    | done => exact absurd hs (hz t.st.state (by simp)).2
    | doNothing => exact absurd hs (hz t.st.state (by simp)).1
    | initial =>
      have hq := hi.queue (by rw [hs]; nofun)
      refine next_step (by rw [hs]; nofun) (by rw [hs]) ?_
      obtain ⟨rs, r, _, ha, _⟩ := hr
      obtain ⟨x, t', h⟩ := initial_ok ha
      exact .of_ok h (fwd (((initial_lay hs hq).elim h).fwd hs hq))
    | inScripting =>
      have hq := hi.queue (by rw [hs]; nofun)
      have hsc : Scr t := ⟨hs, hq, hi.stk⟩
      refine next_step (by rw [hs]; nofun) (by rw [hs]) ?_
      have hr' := hr
      obtain ⟨rs, r, e, ha, hL⟩ := hr'
      rw [hq] at e
      have e : ts = rs := e
      subst e
      rw [hs] at hL
      have hdep : depth t.st = t.st.stack.length := by unfold depth; rw [hs]
      have hc := hc ts (by rw [hq]; rfl)
      rw [hdep] at hc
      have hg : Gb (nextToken fuel) fuel t := ⟨⟨hq, (blkNext_all hb hst fuel).blocks hb fuel⟩, (blkSafe_all hb hst fuel).go hb fuel⟩
      exact (scripting_go fuel hsc hg hst ha hL hc hd).cons (fun _ _ h => fwd (h.fwd hsc)) (fun _ _ h => h.elim)
    | lookingForProperty =>
      have hq := hi.queue (by rw [hs]; nofun)
      obtain ⟨k, hk⟩ := hi.head (.inr hs)
      refine next_step (by rw [hs]; nofun) (by rw [hs]) ?_
      have hr' := hr
      obtain ⟨rs, r, e, ha, hL⟩ := hr'
      refine ((property_go ha hk).and (property_lay hs hk hq)).cons (fun _ _ h => fwd (h.2.fwd hs hq)) ?_
      rintro e u ⟨_, rfl, hN⟩
      have hR := hN.rest hs hq hr
      obtain ⟨hc', hq', hs', hk', hre, _⟩ := hN
      refine ⟨rfl, hre, (ih { u with st := { u.st with restart := false } } ts ⟨?_, ?_, fun _ => hq', by rw [show ({ u with st := { u.st with restart := false } } : Tz).queue = [] from hq']; nofun⟩ ?_ (by rw [hc']; exact hb) (by rw [hc']; exact hst) hR ?_ (by rw [hc']; exact hd)).cons
        (fun _ _ h => h.imp id fun ⟨ts', h1, h2, h3, h4⟩ => ⟨ts', h1, h2, h3, fun _ => h4 hq'⟩) (fun _ _ h => h)⟩
      · intro s hs; rw [hk'] at hs; exact hi.stk s (by rw [hk]; simp [hs])
      · rintro (h | h) <;> (rw [hs'] at h; cases h)
      · intro s hm
        rcases List.mem_cons.1 hm with h | h
        · have h : s = u.st.state := h
          rw [h, hs']
          exact ⟨nofun, nofun⟩
        · have h : s ∈ u.st.stack := h
          rw [hk'] at h
          exact hz s (by rw [hk]; simp [h])
      · have h1 : depth t.st = k.length := by unfold depth; rw [hs, hk]; rfl
        have h2 : depth { u.st with restart := false } = k.length := by unfold depth; rw [hs', hk']
        intro rs' e'
        rw [hq'] at e'
        have hc := hc rs' (by rw [hq]; exact e')
        rw [h1] at hc
        show Closed (depth { u.st with restart := false }) _
        rw [h2]
        exact hc
    | emitQueue =>
      obtain ⟨k, hk⟩ := hi.head (.inl hs)
      obtain ⟨rs, r, rfl, h1, h2⟩ := hr
      cases hq : t.queue with
      | cons x q =>
        refine Safe.of_ok (a := x) (t' := { t with queue := q }) ?_ ?_
        · conv => lhs; unfold nextToken
          simp only [hs, hq]
        · exact .inr ⟨q.map TokSpan.tok ++ rs, rfl, ⟨rs, r, rfl, h1, h2⟩, hz, nofun⟩
      | nil =>
        have e : nextToken (fuel + 1) t = nextToken fuel { t with st := { t.st with state := .inScripting, stack := k, restart := true } } := by
          conv => lhs; unfold nextToken
          simp only [hs, hq]
          rw [bind_ok (popState_ok hk)]
          refine (bind_ok (m := modSt _) rfl).trans ?_
          simp only [hq]
        rw [hq] at hd
        have hc := hc rs rfl
        have := ih { t with st := { t.st with state := .inScripting, stack := k, restart := true } } rs
          ⟨fun s hs' => hi.stk s (by rw [hk]; simp [show s ∈ k from hs']), (by rintro (h | h) <;> cases h), fun _ => hq, hi.noEnd⟩ ?_ hb hst
          ⟨rs, r, by rw [hq]; rfl, h1, by rw [hs] at h2; exact h2⟩ ?_ hd
        · have : Safe _ _ _ _ := this
          unfold Safe at this ⊢
          rw [e, hq]
          rw [hq] at this
          exact this
        · intro s hm
          rcases List.mem_cons.1 hm with h | h
          · rw [h]
            exact ⟨nofun, nofun⟩
          · exact hz s (by rw [hk]; simp [show s ∈ k from h])
        · have h1 : depth t.st = k.length := by unfold depth; rw [hs, hk]; rfl
          rw [h1] at hc
          intro rs' e'
          have e' : rs = t.queue.map TokSpan.tok ++ rs' := e'
          rw [hq] at e'
          have e' : rs = rs' := e'
          subst e'
          exact hc

theorem closed_step {d d' : Nat} {x : Token} {ts : List Token} (h : Closed d (x :: ts))
    (hd : d' + (if closesBrace x then 1 else 0) = d + (if opensBrace x then 1 else 0)) : Closed d' ts := by
  rintro a b rfl
  have := h (x :: a) b rfl
  rw [List.filter_cons, List.filter_cons] at this
  split at this <;> split at this <;> simp_all <;> omega

theorem closed_even {d : Nat} {q ts : List Token} (h : Closed d (q ++ ts)) (hq : Evened q) : Closed d ts := by
  rintro a b rfl
  have := h (q ++ a) b (List.append_assoc ..).symm
  unfold Evened at hq
  simp only [List.filter_append, List.length_append] at this
  omega

theorem behind_step {fuel : Nat} {t u : Tz} {x : TokSpan} {ts : List Token} (hi : Inv t) (hn : nextToken fuel t = .ok x u) (hp : NextPost t x u)
    (hc : AfterQ t (x.tok :: ts)) (hev : t.queue = [] → Evened (u.queue.map TokSpan.tok)) : AfterQ u ts := by
  cases hq : t.queue with
  | nil =>
    rintro rs rfl
    refine closed_even (closed_step (hc _ (by rw [hq]; rfl)) (hp.dep.resolve_left fun h => h.2 hq)) (hev hq)
  | cons y q =>
    have hs : t.st.state = .emitQueue := by
      apply Classical.byContradiction
      intro h
      rw [hi.queue h] at hq
      cases hq
    cases fuel with
    | zero => cases hn
    | succ fuel =>
      have : nextToken (fuel + 1) t = .ok y { t with queue := q } := by
        conv => lhs; unfold nextToken
        simp only [hs, hq]
      rw [this] at hn
      cases hn
      rintro rs rfl
      exact hc rs (by rw [hq]; rfl)

theorem lexAll_go {fuel : Nat} : ∀ (n : Nat) (t : Tz) (acc : List TokSpan) (ts : List Token), Inv t → (∀ y ∈ t.queue, y.tok ≠ .k .End) → Busy t →
    ¬ HasWild t.code → ¬ HasStray t.code → Rest t ts → AfterQ t ts → ¬ DotEnd t.code ts →
    lexAll fuel n t acc = .oof ∨ ∃ b t', lexAll fuel n t acc = .ok (acc ++ b, t') ∧ b.map TokSpan.tok = ts := by
  intro n
  induction n with
  | zero => intro t acc ts _ _ _ _ _ _ _ _; exact .inl rfl
  | succ n ih =>
    intro t acc ts hi hne hz hb hst hr hc hd
    have hL : LInv t := ⟨hi.stk, hi.head, hi.queue, hne⟩
    have hg := next_go fuel t ts hL hz hb hst hr hc hd
    unfold Safe at hg
    unfold lexAll
    cases hn : nextToken fuel t with
    | ok x u =>
      rw [hn] at hg
      dsimp only at hg ⊢
      have hp := (next_wp fuel t hi).elim hn
      have hq := (next_lay fuel t hL hb hst).elim hn
      rcases hg with ⟨h1, rfl⟩ | ⟨ts', rfl, hr', hz', hev⟩
      · rw [if_pos h1]
        exact .inr ⟨[], u, by simp, rfl⟩
      · have hend : x.tok ≠ .k .End := fun h => by
          obtain ⟨rs, r, e, h1, h2⟩ := hr
          have : Token.k .End ∈ t.queue.map TokSpan.tok ++ rs := by rw [← e, h]; simp
          rcases List.mem_append.1 this with h | h
          · obtain ⟨y, hy, h⟩ := List.mem_map.1 h
            exact hne y hy h
          · exact h2.noEnd h
        rw [if_neg hend]
        have hne' : ∀ y ∈ u.queue, y.tok ≠ .k .End := by
          intro y hy h
          obtain ⟨rs, r, e, h1, h2⟩ := hr
          have : Token.k .End ∈ t.queue.map TokSpan.tok ++ rs := by
            rw [← e]
            obtain ⟨rs', r', rfl, _⟩ := hr'
            refine List.mem_cons_of_mem _ (List.mem_append_left _ (List.mem_map.2 ⟨y, hy, h⟩))
          rcases List.mem_append.1 this with h | h
          · obtain ⟨y, hy, h⟩ := List.mem_map.1 h
            exact hne y hy h
          · exact h2.noEnd h
        have hd' : ¬ DotEnd u.code ts' := by
          rw [hp.code]
          rintro ⟨h1, h2⟩
          refine hd ⟨h1, ?_⟩
          cases ts' with
          | nil => cases h2
          | cons y ts' => rw [List.getLast?_cons_cons]; exact h2
        rcases ih u (acc ++ [x]) ts' hp.inv hne' hz' (by rw [hp.code]; exact hb) (by rw [hp.code]; exact hst) hr'
          (behind_step hi hn hp hc hev) hd' with h | ⟨b, t', h, e⟩
        · exact .inl h
        · exact .inr ⟨x :: b, t', by rw [h]; simp, by rw [← e]; rfl⟩
    | err e u => rw [hn] at hg; exact hg.elim
    | panic p => rw [hn] at hg; exact hg.elim
    | oof => exact .inl rfl

end
end Pico
