import Verif.Spec.Source

/-!
# A test that a list of items is a script

`Script` is a statement about all texts; for the examples beside the theorems a sufficient test that can be computed
is enough.
-/

namespace Pico

def isSpaceTab (c : Char) : Bool := c == ' ' || c == '\t'

/-- A test for `CastAhead`. -/
def castAheadB (rest : Text) : Bool :=
  castWords.any fun x => x.1.isPrefixOf (rest.dropWhile isSpaceTab) &&
    c!")".isPrefixOf (((rest.dropWhile isSpaceTab).drop x.1.length).dropWhile isSpaceTab)

theorem dropWhile_spaces {b r : Text} (hb : Spaces b) (hr : ∀ c, r.head? = some c → isSpaceTab c = false) :
    (b ++ r).dropWhile isSpaceTab = r := by
  induction b with
  | nil =>
    cases r with
    | nil => rfl
    | cons c r => rw [List.nil_append, List.dropWhile_cons, hr c rfl]; rfl
  | cons c b ih =>
    have hc : isSpaceTab c = true := by
      rcases hb c (by simp) with rfl | rfl <;> decide
    rw [List.cons_append, List.dropWhile_cons, hc]
    exact ih fun x hx => hb x (by simp [hx])

theorem castAheadB_false {rest : Text} (h : castAheadB rest = false) : ¬ CastAhead rest := by
  rintro ⟨b, w, b', r, rfl, hb, hb', k, hk⟩
  have hw : ∃ c v, w = c :: v ∧ isSpaceTab c = false := by
    have : ∀ x ∈ castWords, ∃ c, x.1.head? = some c ∧ isSpaceTab c = false := by
      intro x hx
      simp only [castWords, List.mem_cons, List.not_mem_nil, or_false] at hx
      rcases hx with rfl | rfl | rfl | rfl | rfl | rfl | rfl | rfl | rfl | rfl | rfl <;> exact ⟨_, rfl, rfl⟩
    obtain ⟨c, hc, hs⟩ := this _ hk
    cases w with
    | nil => cases hc
    | cons d v => cases hc; exact ⟨_, v, rfl, hs⟩
  obtain ⟨c, v, rfl, hc⟩ := hw
  have e1 : (b ++ (c :: v) ++ b' ++ c!")" ++ r).dropWhile isSpaceTab = (c :: v) ++ (b' ++ c!")" ++ r) := by
    have : b ++ (c :: v) ++ b' ++ c!")" ++ r = b ++ ((c :: v) ++ (b' ++ c!")" ++ r)) := by simp
    rw [this]
    exact dropWhile_spaces hb fun d hd => by cases hd; exact hc
  have e2 : (((c :: v) ++ (b' ++ c!")" ++ r)).drop (c :: v).length).dropWhile isSpaceTab = c!")" ++ r := by
    rw [List.drop_left, List.append_assoc]
    exact dropWhile_spaces hb' fun d hd => by cases hd; rfl
  have : castAheadB (b ++ (c :: v) ++ b' ++ c!")" ++ r) = true := by
    unfold castAheadB
    rw [List.any_eq_true]
    refine ⟨(c :: v, k), hk, ?_⟩
    rw [e1]
    simp only [e2, Bool.and_eq_true]
    exact ⟨by simp, by simp⟩
  rw [this] at h
  cases h

/-- A test for lexemes: words other than `yield` and `b`, variables, symbols. -/
def lexemeB (l : Lexeme) (rest : Text) : Bool :=
  match l with
  | .word w => isIdentifier w && w != c!"yieldfrom" && endsIdentifier rest && w != c!"yield" && w != c!"b"
  | .var n => isIdentifier n && endsIdentifier rest
  | .sym w k => symbols.contains (w, k) && rest.head?.all (stops w) && (w != c!"(" || !castAheadB rest) &&
      (w != c!"." || rest != [])
  | .str body s => body == s && body.all fun c => c != '\\' && c != '\''
  | _ => false

theorem quoted_plain {b : Text} (h : (b.all fun c => c != '\\' && c != '\'') = true) : Quoted b b := by
  induction b with
  | nil => exact .nil
  | cons c b ih =>
    simp only [List.all_cons, Bool.and_eq_true, bne_iff_ne] at h
    exact .plain c h.1 (ih (by simpa using h.2))

theorem lexemeB_ok {prop : Bool} {l : Lexeme} {rest : Text} (h : lexemeB l rest = true) : l.Ok ∧ l.Before prop rest := by
  cases l with
  | word w =>
    simp only [lexemeB, Bool.and_eq_true, bne_iff_ne] at h
    exact ⟨⟨h.1.1.1.1, h.1.1.1.2⟩, h.1.1.2, fun _ => ⟨fun e => absurd e h.1.2, fun e => absurd e h.2⟩⟩
  | var n =>
    simp only [lexemeB, Bool.and_eq_true] at h
    exact h
  | sym w k =>
    simp only [lexemeB, Bool.and_eq_true, Bool.or_eq_true, bne_iff_ne, Bool.not_eq_true', List.contains_iff_mem] at h
    refine ⟨h.1.1.1, ?_, fun e => ?_, fun e => ?_⟩
    · intro c hc
      have := h.1.1.2
      rw [hc] at this
      exact this
    · rcases h.1.2 with h | h
      · exact absurd e h
      · exact castAheadB_false h
    · rcases h.2 with h | h
      · exact absurd e h
      · exact h
  | str b s =>
    simp only [lexemeB, Bool.and_eq_true, beq_iff_eq] at h
    obtain ⟨rfl, h⟩ := h
    exact ⟨quoted_plain h, trivial⟩
  | int _ _ => cases h
  | double _ _ => cases h
  | cast _ _ _ _ => cases h

def blankTest (w : Text) : Bool := w.all fun c => c == ' ' || c == '\t' || c == '\r' || c == '\n'

def apartB : List Item → Text → Bool
  | [], _ => true
  | .lex l :: is, rest => lexemeB l (render is ++ rest) && apartB is rest
  | .gap w :: is, rest => blankTest w && apartB is rest
  | .block body :: is, rest => !body.isEmpty && !body.contains '*' && apartB is rest
  | .line o body :: is, rest => (o == c!"#" || o == c!"//") && !body.contains '\n' &&
      ((render is ++ rest).isEmpty || c!"\n".isPrefixOf (render is ++ rest)) && apartB is rest
  | _ :: _, _ => false

theorem apartB_ok {prop : Bool} {is : List Item} {rest : Text} (h : apartB is rest = true) : Apart prop is rest := by
  induction is generalizing prop with
  | nil => trivial
  | cons i is ih =>
    cases i with
    | lex l =>
      simp only [apartB, Bool.and_eq_true] at h
      have hl := lexemeB_ok (prop := prop) h.1
      exact ⟨hl.1, hl.2, ih h.2⟩
    | gap w =>
      simp only [apartB, Bool.and_eq_true] at h
      refine ⟨?_, ih h.2⟩
      intro c hc
      have := List.all_eq_true.1 h.1 c hc
      simp only [Bool.or_eq_true, beq_iff_eq] at this
      rcases this with ((h | h) | h) | h <;> simp [h]
    | dq _ => cases h
    | block body =>
      simp only [apartB, Bool.and_eq_true, Bool.not_eq_true', List.isEmpty_eq_false_iff, List.contains_eq_mem,
        decide_eq_false_iff_not] at h
      exact ⟨h.1.1, fun hi => h.1.2 (hi.subset (by simp)), ih h.2⟩
    | line o body =>
      simp only [apartB, Bool.and_eq_true, Bool.not_eq_true', Bool.or_eq_true, beq_iff_eq, List.isPrefixOf_iff_prefix,
        List.isEmpty_iff, List.contains_eq_mem, decide_eq_false_iff_not] at h
      exact ⟨h.1.1.1, h.1.1.2, h.1.2, ih h.2⟩

theorem script_check {is : List Item} {closed : Bool}
    (h : (apartB is (if closed then c!"?>" else []) && (braces 0 is).isSome) = true) : Script is closed := by
  rw [Bool.and_eq_true] at h
  exact ⟨apartB_ok h.1, Option.isSome_iff_exists.1 h.2⟩

/-! Abbreviations for the examples -/

/-- A word with a space in front of it. -/
def wd (w : Text) : List Item := [.gap c!" ", .lex (.word w)]
/-- A variable with a space in front of it. -/
def vr (n : Text) : List Item := [.gap c!" ", .lex (.var n)]
/-- A symbol. -/
def sy (w : Text) : List Item := [.lex (.sym w ((symbols.lookup w).getD .SemiColon))]

end Pico
