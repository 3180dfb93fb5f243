import Verif.Lemmas.LexItem
/-!
# Other blanks, same lexemes

`Respaced` scripts are told apart alike. What decides where a lexeme ends are patterns of fixed characters with
optional blanks between them (`Pat`); other blanks do not make a pattern match that did not match before.
-/
namespace Pico

/-- The text begins with the pattern; `none` stands for any number of characters with `q`. -/
inductive Pat (q : Char → Prop) : List (Option Char) → Text → Prop
  | nil (t : Text) : Pat q [] t
  | char {p : List (Option Char)} {t : Text} (c : Char) (h : Pat q p t) : Pat q (some c :: p) (c :: t)
  | skip {p : List (Option Char)} {t : Text} (h : Pat q p t) : Pat q (none :: p) t
  | blank {p : List (Option Char)} {t : Text} (c : Char) (hc : q c) (h : Pat q (none :: p) t) : Pat q (none :: p) (c :: t)

variable {q : Char → Prop}

theorem Pat.lift {R R' : Text} {p0 : List (Option Char)} (h : ∀ p, p <:+ p0 → Pat q p R' → Pat q p R) {p : List (Option Char)} {t : Text} (hp : Pat q p t) :
    ∀ x, t = x ++ R' → p <:+ p0 → Pat q p (x ++ R) := by
  induction hp with
  | nil => exact fun x _ _ => .nil _
  | char c hp ih =>
    intro x hx hs
    cases x with
    | nil => exact h _ hs (by rw [← show _ = R' from hx]; exact .char c hp)
    | cons y x => cases hx; exact .char _ (ih x rfl (List.IsSuffix.trans (List.suffix_cons _ _) hs))
  | skip hp ih => exact fun x hx hs => .skip (ih x hx (List.IsSuffix.trans (List.suffix_cons _ _) hs))
  | blank c hc hp ih =>
    intro x hx hs
    cases x with
    | nil => exact h _ hs (by rw [← show _ = R' from hx]; exact .blank c hc hp)
    | cons y x => cases hx; exact .blank _ hc (ih x rfl hs)

/-- Only optional blanks. -/
theorem Pat.trivial {p : List (Option Char)} (h : ∀ x ∈ p, x = none) (t : Text) : Pat q p t := by
  induction p with
  | nil => exact .nil _
  | cons x p ih =>
    rw [h x (by simp)]
    exact .skip (ih fun y hy => h y (by simp [hy]))

/-- A pattern on a text whose first character is none of its characters. -/
theorem Pat.stuck {p : List (Option Char)} {t : Text} (hp : Pat q p t) : ∀ c r, t = c :: r → ¬ q c → some c ∉ p → ∀ x ∈ p, x = none := by
  induction hp with
  | nil => intro _ _ _ _ _ x hx; cases hx
  | char c' hp ih =>
    intro c r hr _ hc
    cases hr
    exact absurd (by simp) hc
  | skip hp ih =>
    intro c r hr hq hc x hx
    rcases List.mem_cons.1 hx with rfl | hx
    · rfl
    · exact ih c r hr hq (fun h => hc (by simp [h])) x hx
  | blank c' hc' hp ih =>
    intro c r hr hq
    cases hr
    exact absurd hc' hq

/-- A pattern on blanks. -/
theorem Pat.gap {p : List (Option Char)} {t : Text} (hp : Pat q p t) : ∀ w R', t = w ++ R' → (∀ c ∈ w, some c ∉ p) →
    w ≠ [] → (∀ x ∈ p, x = none) ∨ ((∀ c ∈ w, q c) ∧ ∃ p1 p2, p = p1 ++ none :: p2 ∧ (∀ x ∈ p1, x = none) ∧ Pat q (none :: p2) R') := by
  induction hp with
  | nil => intro _ _ _ _ _; exact .inl nofun
  | char c hp ih =>
    intro w R' hw hc hne
    cases w with
    | nil => exact absurd rfl hne
    | cons y w => cases hw; exact absurd (by simp) (hc c (by simp))
  | skip hp ih =>
    intro w R' hw hc hne
    rcases ih w R' hw (fun c hc' h => hc c hc' (by simp [h])) hne with h | ⟨h, p1, p2, h1, h2, h3⟩
    · exact .inl fun x hx => by
        rcases List.mem_cons.1 hx with rfl | hx
        · rfl
        · exact h x hx
    · refine .inr ⟨h, none :: p1, p2, by rw [h1]; rfl, ?_, h3⟩
      intro x hx
      rcases List.mem_cons.1 hx with rfl | hx
      · rfl
      · exact h2 x hx
  | @blank p t c hq hp ih =>
    intro w R' hw hc hne
    cases w with
    | nil => exact absurd rfl hne
    | cons y w =>
      cases hw
      by_cases hw : w = []
      · subst hw
        refine .inr ⟨?_, [], p, rfl, nofun, hp⟩
        intro c' hc'
        rw [List.mem_singleton.1 hc']
        exact hq
      · rcases ih w R' rfl (fun c' h' => hc c' (by simp [h'])) hw with h | ⟨h, h'⟩
        · exact .inl h
        · refine .inr ⟨?_, h'⟩
          intro c' hc'
          rcases List.mem_cons.1 hc' with rfl | hc'
          · exact hq
          · exact h c' hc'

theorem Pat.blanks {w : Text} (hw : ∀ c ∈ w, q c) {p1 p2 : List (Option Char)} (h1 : ∀ x ∈ p1, x = none) {t : Text}
    (h : Pat q (none :: p2) t) : Pat q (p1 ++ none :: p2) (w ++ t) := by
  induction p1 with
  | nil =>
    induction w with
    | nil => exact h
    | cons c w ih => exact .blank c (hw c (by simp)) (ih fun c' h' => hw c' (by simp [h']))
  | cons x p1 ih =>
    rw [h1 x (by simp)]
    exact .skip (ih fun y hy => h1 y (by simp [hy]))

/-- The patterns that matter. -/
def PatOk (q : Char → Prop) (p : List (Option Char)) : Prop := ∀ c, some c ∈ p → c ≠ '(' ∧ ¬ (c = ' ' ∨ c = '\t' ∨ c = '\r' ∨ c = '\n') ∧ ¬ q c

/-- The characters that count as optional blanks: all, or spaces and tabs. -/
def BlankLike (q : Char → Prop) : Prop := ¬ q '(' ∧ ((∀ w, Blank w → ∀ c ∈ w, q c) ∨ ∀ w, (∀ c ∈ w, q c) → Spaces w) ∧
  ∀ w, Spaces w → ∀ c ∈ w, q c

/-- A pattern that matches the respaced script also matches the script. -/
theorem Respaced.pat (hq : BlankLike q) {is js : List Item} (h : Respaced is js) (tail : Text) (prop : Bool) (ha : Apart prop is tail) :
    ∀ p, PatOk q p → Pat q p (render js ++ tail) → Pat q p (render is ++ tail) := by
  have hsuf : ∀ {p p'}, PatOk q p → p' <:+ p → PatOk q p' := fun h hs c hc => h c (hs.subset hc)
  have hgap : ∀ {R R' : Text} (w w' : Text), w ≠ [] → w' ≠ [] → Blank w → Blank w' → (Spaces w' → Spaces w) →
      (∀ p, PatOk q p → Pat q p R' → Pat q p R) → ∀ p, PatOk q p → Pat q p (w' ++ R') → Pat q p (w ++ R) := by
    intro R R' w w' hw hw' hb hb' hs ih p hp hm
    rcases hm.gap w' R' rfl (fun c hc h => (hp c h).2.1 (hb' c hc)) hw' with h | ⟨h, p1, p2, rfl, h2, h3⟩
    · exact .trivial h _
    · refine .blanks ?_ h2 (ih _ (hsuf hp (List.suffix_append _ _)) h3)
      rcases hq.2.1 with hq1 | hq1
      · exact hq1 w hb
      · exact hq.2.2 w (hs (hq1 w' h))
  induction h generalizing prop with
  | nil => exact fun p _ h => h
  | @lex is js l _ ih =>
    intro p hp hm
    unfold render at hm ⊢
    rw [List.append_assoc] at hm ⊢
    exact Pat.lift (p0 := p) (fun p' hs h => ih _ ha.2.2 p' (hsuf hp hs) h) hm _ rfl (List.suffix_refl _)
  | dq its _ ih =>
    intro p hp hm
    unfold render at hm ⊢
    rw [List.append_assoc] at hm ⊢
    exact Pat.lift (p0 := p) (fun p' hs h => ih _ ha.2 p' (hsuf hp hs) h) hm _ rfl (List.suffix_refl _)
  | cast b w b' c c' k hc hc' _ ih =>
    intro p hp hm
    exact .trivial (hm.stuck '(' _ rfl hq.1 (fun h => (hp _ h).1 rfl)) _
  | gap w w' hw hw' hb hs _ ih =>
    intro p hp hm
    unfold render at hm ⊢
    rw [List.append_assoc] at hm ⊢
    exact hgap w w' hw hw' ha.1 hb hs (fun p' hp' h' => ih _ ha.2 p' hp' h') p hp hm
  | block body _ ih =>
    intro p hp hm
    unfold render at hm ⊢
    rw [List.append_assoc] at hm ⊢
    exact Pat.lift (p0 := p) (fun p' hs h => ih _ ha.2.2 p' (hsuf hp hs) h) hm _ rfl (List.suffix_refl _)
  | line o body w w' hb _ ih =>
    intro p hp hm
    unfold render render at hm ⊢
    rw [List.append_assoc, List.append_assoc] at hm ⊢
    refine Pat.lift (p0 := p) (fun p' hs h => ?_) hm _ rfl (List.suffix_refl _)
    have ha' := ha.2.2.2
    refine hgap ('\n' :: w) ('\n' :: w') nofun nofun ha'.1 ?_ ?_ (fun p' hp' h' => ih _ ha'.2 p' hp' h') p' (hsuf hp hs) h
    · intro c hc
      rcases List.mem_cons.1 hc with rfl | hc
      · exact .inr (.inr (.inr rfl))
      · exact hb c hc
    · intro h'
      have := h' '\n' (by simp)
      rcases this with h | h <;> exact absurd h (by decide)

/-! ### First characters -/

def blankChar (c : Char) : Prop := c = ' ' ∨ c = '\t' ∨ c = '\r' ∨ c = '\n'

/-- The same first character, or a blank each. -/
def SameHead (a b : Text) : Prop :=
  (a = [] ∧ b = []) ∨ ∃ c r c' r', a = c :: r ∧ b = c' :: r' ∧ (c = c' ∨ blankChar c ∧ blankChar c')

theorem SameHead.append {a b : Text} (x : Text) (h : SameHead a b) : SameHead (x ++ a) (x ++ b) := by
  cases x with
  | nil => exact h
  | cons c x => exact .inr ⟨c, _, c, _, rfl, rfl, .inl rfl⟩

theorem Respaced.head {is js : List Item} (h : Respaced is js) (tail : Text) (prop : Bool) (ha : Apart prop is tail) :
    SameHead (render is ++ tail) (render js ++ tail) := by
  induction h generalizing prop with
  | nil =>
    cases tail with
    | nil => exact .inl ⟨rfl, rfl⟩
    | cons c r => exact .inr ⟨c, r, c, r, rfl, rfl, .inl rfl⟩
  | lex l _ ih =>
    unfold render
    rw [List.append_assoc, List.append_assoc]
    exact (ih _ ha.2.2).append _
  | dq => exact .inr ⟨'"', _, '"', _, rfl, rfl, .inl rfl⟩
  | cast => exact .inr ⟨'(', _, '(', _, rfl, rfl, .inl rfl⟩
  | gap w w' hw hw' hb hs _ ih =>
    cases w with
    | nil => exact absurd rfl hw
    | cons c w =>
      cases w' with
      | nil => exact absurd rfl hw'
      | cons c' w' => exact .inr ⟨c, _, c', _, rfl, rfl, .inr ⟨ha.1 c (by simp), hb c' (by simp)⟩⟩
  | block body _ ih => exact .inr ⟨'/', _, '/', _, rfl, rfl, .inl rfl⟩
  | line o body w w' hb _ ih =>
    rcases ha.1 with rfl | rfl
    · exact .inr ⟨'#', _, '#', _, rfl, rfl, .inl rfl⟩
    · exact .inr ⟨'/', _, '/', _, rfl, rfl, .inl rfl⟩

theorem SameHead.identifier {a b : Text} (h : SameHead a b) (ha : endsIdentifier a = true) : endsIdentifier b = true := by
  rcases h with ⟨-, rfl⟩ | ⟨c, r, c', r', rfl, rfl, rfl | ⟨-, h⟩⟩
  · rfl
  · exact ha
  · rcases h with rfl | rfl | rfl | rfl <;> rfl

theorem SameHead.number {a b : Text} (h : SameHead a b) (ha : endsNumber a = true) : endsNumber b = true := by
  rcases h with ⟨-, rfl⟩ | ⟨c, r, c', r', rfl, rfl, rfl | ⟨-, h⟩⟩
  · rfl
  · exact ha
  · rcases h with rfl | rfl | rfl | rfl <;> rfl

theorem symbols_no_blank : ∀ s ∈ (c!"?>" :: c!"**=" :: c!"//" :: c!"/*" :: c!"<<<" :: symbols.map Prod.fst),
    ' ' ∉ s ∧ '\t' ∉ s ∧ '\r' ∉ s ∧ '\n' ∉ s := by decide +kernel

theorem stops_blank (w : Text) {c : Char} (hc : blankChar c) : stops w c = true := by
  unfold stops
  rw [Bool.and_eq_true]
  refine ⟨?_, ?_⟩
  · rw [List.all_eq_true]
    intro s hs
    cases h : (w ++ [c]).isPrefixOf s with
    | false => rfl
    | true =>
      exfalso
      have hm : c ∈ s := (List.isPrefixOf_iff_prefix.1 h).subset (by simp)
      have hn := symbols_no_blank s hs
      rcases hc with rfl | rfl | rfl | rfl
      · exact hn.1 hm
      · exact hn.2.1 hm
      · exact hn.2.2.1 hm
      · exact hn.2.2.2 hm
  · rcases hc with rfl | rfl | rfl | rfl <;> cases w == c!"." <;> decide

/-! ### Patterns in the conditions -/

theorem Pat.word {w : Text} {p : List (Option Char)} {t : Text} (h : Pat q p t) : Pat q (w.map some ++ p) (w ++ t) := by
  induction w with
  | nil => exact h
  | cons c w ih => exact .char c ih

theorem Pat.of_blanks {b : Text} (hb : ∀ c ∈ b, q c) {p : List (Option Char)} {t : Text} (h : Pat q p t) :
    Pat q (none :: p) (b ++ t) := Pat.blanks (p1 := []) hb nofun (.skip h)

theorem Pat.of_word {w : Text} {p : List (Option Char)} {t : Text} (h : Pat q (w.map some ++ p) t) : ∃ r, t = w ++ r ∧ Pat q p r := by
  induction w generalizing t with
  | nil => exact ⟨t, rfl, h⟩
  | cons c w ih =>
    cases h with
    | char _ h =>
      obtain ⟨r, rfl, hr⟩ := ih h
      exact ⟨r, rfl, hr⟩

theorem Pat.of_none {p : List (Option Char)} {t : Text} (h : Pat q (none :: p) t) : ∃ b r, t = b ++ r ∧ (∀ c ∈ b, q c) ∧ Pat q p r := by
  generalize hp : none :: p = p' at h
  induction h with
  | nil => cases hp
  | char => cases hp
  | skip h => cases hp; exact ⟨[], _, rfl, nofun, h⟩
  | blank c hc h ih =>
    obtain ⟨b, r, rfl, hb, hr⟩ := ih hp
    refine ⟨c :: b, r, rfl, ?_, hr⟩
    intro x hx
    rcases List.mem_cons.1 hx with rfl | hx
    · exact hc
    · exact hb x hx

theorem blankLike_blank : BlankLike blankChar :=
  ⟨(by rintro (h | h | h | h) <;> cases h), .inl fun _ h => h, fun w h c hc => (h c hc).elim .inl fun h => .inr (.inl h)⟩

theorem blankLike_space : BlankLike fun c => c = ' ' ∨ c = '\t' :=
  ⟨(by rintro (h | h) <;> cases h), .inr fun _ h => h, fun _ h => h⟩

theorem patOk_word (w : Text) (h : w.all (fun c => c != '(' && c != ' ' && c != '\t' && c != '\r' && c != '\n') = true) :
    ∀ c ∈ w, c ≠ '(' ∧ ¬ blankChar c := by
  intro c hc
  have := List.all_eq_true.1 h c hc
  simp only [Bool.and_eq_true, bne_iff_ne] at this
  refine ⟨this.1.1.1.1, ?_⟩
  rintro (h | h | h | h)
  · exact this.1.1.1.2 h
  · exact this.1.1.2 h
  · exact this.1.2 h
  · exact this.2 h

theorem patOk_blank {p : List (Option Char)} {w : Text} (hp : ∀ c, some c ∈ p → c ∈ w)
    (h : w.all (fun c => c != '(' && c != ' ' && c != '\t' && c != '\r' && c != '\n') = true) : PatOk blankChar p :=
  fun c hc => let h' := patOk_word w h c (hp c hc); ⟨h'.1, h'.2, h'.2⟩

theorem patOk_space {p : List (Option Char)} {w : Text} (hp : ∀ c, some c ∈ p → c ∈ w)
    (h : w.all (fun c => c != '(' && c != ' ' && c != '\t' && c != '\r' && c != '\n') = true) : PatOk (fun c => c = ' ' ∨ c = '\t') p :=
  fun c hc => let h' := patOk_word w h c (hp c hc); ⟨h'.1, h'.2, fun h => h'.2 (h.elim .inl fun h => .inr (.inl h))⟩

theorem castWords_chars : ∀ p ∈ castWords, (p.1 ++ c!")").all (fun c => c != '(' && c != ' ' && c != '\t' && c != '\r' && c != '\n') = true := by
  decide +kernel

variable {is js : List Item} {tail : Text} {prop : Bool}

theorem Respaced.castAhead (h : Respaced is js) (ha : Apart prop is tail) (hc : CastAhead (render js ++ tail)) :
    CastAhead (render is ++ tail) := by
  obtain ⟨b, w, b', r, hr, hb, hb', k, hk⟩ := hc
  have hp : Pat (fun c => c = ' ' ∨ c = '\t') (none :: (w.map some ++ none :: (c!")".map some ++ []))) (render js ++ tail) := by
    rw [hr, List.append_assoc, List.append_assoc, List.append_assoc]
    exact .of_blanks hb (.word (.of_blanks hb' (.word (.nil r))))
  have := h.pat blankLike_space tail prop ha _ (patOk_space (w := w ++ c!")") (by
    intro c hc
    simp only [List.mem_cons, List.mem_append, List.mem_map, List.append_nil, List.map_cons, List.map_nil] at hc
    rcases hc with hc | ⟨x, hx, hc⟩ | hc | hc | hc
    · cases hc
    · cases hc; simp [hx]
    · cases hc
    · cases hc; simp
    · cases hc) (castWords_chars _ hk)) hp
  obtain ⟨b1, r1, h1, hb1, hp1⟩ := this.of_none
  obtain ⟨r2, rfl, hp2⟩ := hp1.of_word
  obtain ⟨b3, r3, rfl, hb3, hp3⟩ := hp2.of_none
  obtain ⟨r4, rfl, -⟩ := hp3.of_word
  exact ⟨b1, w, b3, r4, by rw [h1]; simp, hb1, hb3, k, hk⟩

theorem Respaced.starts (h : Respaced is js) (ha : Apart prop is tail) {w : Text}
    (hw : w.all (fun c => c != '(' && c != ' ' && c != '\t' && c != '\r' && c != '\n') = true) (hc : w <+: render js ++ tail) :
    w <+: render is ++ tail := by
  obtain ⟨r, hr⟩ := hc
  have hp : Pat blankChar (w.map some ++ []) (render js ++ tail) := by
    rw [← hr]
    exact .word (.nil r)
  have := h.pat blankLike_blank tail prop ha _ (patOk_blank (w := w) (by
    intro c hc
    rw [List.append_nil, List.mem_map] at hc
    obtain ⟨x, hx, hc⟩ := hc
    cases hc
    exact hx) hw) hp
  obtain ⟨r', hr', -⟩ := this.of_word
  exact ⟨r', hr'.symm⟩

theorem Respaced.from (h : Respaced is js) (ha : Apart prop is tail) (hc : ∃ b r, render js ++ tail = b ++ c!"from" ++ r ∧ Blank b) :
    ∃ b r, render is ++ tail = b ++ c!"from" ++ r ∧ Blank b := by
  obtain ⟨b, r, hr, hb⟩ := hc
  have hp : Pat blankChar (none :: (c!"from".map some ++ [])) (render js ++ tail) := by
    rw [hr, List.append_assoc]
    exact .of_blanks hb (.word (.nil r))
  have := h.pat blankLike_blank tail prop ha _ (patOk_blank (w := c!"from") (by
    intro c hc
    simp at hc
    simp [hc]) rfl) hp
  obtain ⟨b1, r1, h1, hb1, hp1⟩ := this.of_none
  obtain ⟨r2, rfl, -⟩ := hp1.of_word
  exact ⟨b1, r2, by rw [h1]; simp, hb1⟩

theorem Respaced.before (h : Respaced is js) (ha : Apart prop is tail) {p : Bool} {l : Lexeme} (hl : l.Before p (render is ++ tail)) :
    l.Before p (render js ++ tail) := by
  have hh := h.head tail prop ha
  cases l with
  | word w =>
    refine ⟨hh.identifier hl.1, fun hp => ⟨fun hy hf => (hl.2 hp).1 hy (h.from ha hf), fun hb hf => (hl.2 hp).2 hb ?_⟩⟩
    exact hf.imp (h.starts ha (by decide)) (Or.imp (h.starts ha (by decide)) (h.starts ha (by decide)))
  | var n => exact hh.identifier hl
  | int => exact hh.number hl
  | double => exact hh.number hl
  | str => trivial
  | sym w k =>
    refine ⟨?_, fun hw hc => hl.2.1 hw (h.castAhead ha hc), ?_⟩
    · intro c hc
      rcases hh with ⟨-, hj⟩ | ⟨c1, r, c', r', h1, h2, h3⟩
      · rw [hj] at hc; cases hc
      · rw [h2] at hc
        cases hc
        rcases h3 with rfl | ⟨-, h3⟩
        · exact hl.1 c1 (by rw [h1]; rfl)
        · exact stops_blank w h3
    · intro hw hj
      rcases hh with ⟨hi, -⟩ | ⟨c1, r, c', r', h1, h2, h3⟩
      · exact hl.2.2 hw hi
      · rw [hj] at h2; cases h2
  | cast => trivial

/-- Respaced scripts are told apart alike. -/
theorem Respaced.apart (h : Respaced is js) (ha : Apart prop is tail) : Apart prop js tail := by
  induction h generalizing prop with
  | nil => trivial
  | lex l h ih => exact ⟨ha.1, h.before ha.2.2 ha.2.1, ih ha.2.2⟩
  | dq its h ih => exact ⟨ha.1, ih ha.2⟩
  | cast b w b' c c' k hc hc' h ih => exact ⟨⟨hc, hc', ha.1.2.2⟩, trivial, ih ha.2.2⟩
  | gap w w' hw hw' hb hs h ih => exact ⟨hb, ih ha.2⟩
  | block body h ih => exact ⟨ha.1, ha.2.1, ih ha.2.2⟩
  | line o body w w' hb h ih =>
    refine ⟨ha.1, ha.2.1, .inr ⟨_, rfl⟩, ?_, ih ha.2.2.2.2⟩
    intro c hc
    rcases List.mem_cons.1 hc with rfl | hc
    · exact .inr (.inr (.inr rfl))
    · exact hb c hc

theorem Respaced.toks (h : Respaced is js) (prop : Bool) : Pico.toks prop js = Pico.toks prop is := by
  induction h generalizing prop with
  | nil => rfl
  | lex l h ih => exact congrArg (List.cons _) (ih _)
  | dq its h ih => exact congrArg (fun x => .k .DoubleQuote :: (dqToks [] its ++ .k .DoubleQuote :: x)) (ih _)
  | cast b w b' c c' k hc hc' h ih => exact congrArg (List.cons _) (ih _)
  | gap w w' hw hw' hb hs h ih => exact ih _
  | block body h ih => exact congrArg (List.cons _) (ih _)
  | line o body w w' hb h ih => exact congrArg (List.cons _) (ih _)

theorem Respaced.braces (h : Respaced is js) (d : Nat) : Pico.braces d js = Pico.braces d is := by
  induction h generalizing d with
  | nil => rfl
  | lex l h ih =>
    rw [braces_lex, braces_lex]
    cases lexDepth d l with
    | none => rfl
    | some d => exact ih d
  | dq its h ih => exact ih _
  | cast b w b' c c' k hc hc' h ih => exact ih _
  | gap w w' hw hw' hb hs h ih => exact ih _
  | block body h ih => exact ih _
  | line o body w w' hb h ih => exact ih _

end Pico
