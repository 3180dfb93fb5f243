import Verif.Props.Source

/-!
# Strings between double quotes, from the source to the tree (C25)
-/

namespace Pico

/-- Literal text as an expression (none for the empty text). -/
def textLeaf (s : Text) : List Expr := if s = [] then [] else [bare (.str s)]

/-- What a string between double quotes is made of, read left to right: its variables and properties, and the
literal text between them (`s` is the text collected so far). -/
def dqLeaves (s : Text) : List DqItem → List Expr
  | [] => textLeaf s
  | .var n :: its => textLeaf s ++ bare (.var (.name n)) :: dqLeaves [] its
  | .prop n p :: its =>
    textLeaf s ++ bare (.objMember (bare (.var (.name n))) [bare (.path ⟨false, none, p⟩)]) :: dqLeaves [] its
  | it :: its => dqLeaves (s ++ it.val) its

def textPart (s : Text) : List Part := if s = [] then [] else [.inl s]

def dqParts (s : Text) : List DqItem → List Part
  | [] => textPart s
  | .var n :: its => textPart s ++ .inr (bare (.var (.name n))) :: dqParts [] its
  | .prop n p :: its =>
    textPart s ++ .inr (bare (.objMember (bare (.var (.name n))) [bare (.path ⟨false, none, p⟩)])) :: dqParts [] its
  | it :: its => dqParts (s ++ it.val) its

theorem textPart_derive (s : Text) {ts ps} (h : Derives .parts ts ps) :
    Derives .parts (textTok s ++ ts) (textPart s ++ ps) := by
  unfold textTok textPart
  split
  · exact h
  · exact .parts_text s h

theorem textTok_endsVar (s : Text) {ts : List Token} (h : endsVar ts = true) : endsVar (textTok s ++ ts) = true := by
  unfold textTok
  split
  · exact h
  · rfl

theorem dqToks_endsVar (its : List DqItem) (s : Text) : endsVar (dqToks s its) = true := by
  induction its generalizing s with
  | nil => simpa [dqToks] using textTok_endsVar s (ts := []) rfl
  | cons it its ih => cases it <;> first | exact ih _ | exact textTok_endsVar s rfl

theorem dqParts_derive (its : List DqItem) (s : Text) : Derives .parts (dqToks s its) (dqParts s its) := by
  induction its generalizing s with
  | nil => simpa [dqToks, dqParts] using textPart_derive s .parts_nil
  | cons it its ih =>
    cases it with
    | var n => exact textPart_derive s (.parts_var n (us := []) (.v_name n (.a_nil false _)) (dqToks_endsVar its []) (ih []))
    | prop n p =>
      exact textPart_derive s (.parts_var n (us := [.k .ObjectOp, .string p])
        (.v_name n (.a_member (ts := [.string p]) (us := []) (.p_word p) (.a_nil false _))) (dqToks_endsVar its []) (ih []))
    | _ => exact ih _

theorem leaves_textPart (s : Text) (e : Expr) (ps : List Part) :
    leaves [] (textPart s ++ .inr e :: ps) = textLeaf s ++ e :: leaves [] ps := by
  unfold textPart textLeaf
  split
  · rfl
  · rename_i h
    simp [leaves, h]

theorem dqParts_leaves (its : List DqItem) (s : Text) : leaves [] (dqParts s its) = dqLeaves s its := by
  induction its generalizing s with
  | nil =>
    simp only [dqParts, dqLeaves, textPart, textLeaf]
    split <;> simp_all [leaves]
  | cons it its ih =>
    cases it with
    | var n => rw [dqParts, leaves_textPart, ih]; rfl
    | prop n p => rw [dqParts, leaves_textPart, ih]; rfl
    | _ => exact ih _

theorem dqLeaves_leaf (its : List DqItem) (s : Text) : ∀ x ∈ dqLeaves s its, concatLeaves x = [x] := by
  have ht : ∀ s : Text, ∀ x ∈ textLeaf s, concatLeaves x = [x] := by
    intro s x hx
    unfold textLeaf at hx
    split at hx
    · cases hx
    · rw [List.mem_singleton.1 hx]; rfl
  induction its generalizing s with
  | nil => exact ht s
  | cons it its ih =>
    cases it with
    | var n =>
      intro x hx
      rcases List.mem_append.1 hx with hx | hx
      · exact ht s x hx
      · rcases List.mem_cons.1 hx with rfl | hx
        · rfl
        · exact ih [] x hx
    | prop n p =>
      intro x hx
      rcases List.mem_append.1 hx with hx | hx
      · exact ht s x hx
      · rcases List.mem_cons.1 hx with rfl | hx
        · rfl
        · exact ih [] x hx
    | _ => exact ih _

theorem dqToks_nil (its : List DqItem) (s : Text) (h : dqLeaves s its = []) : dqToks s its = [] := by
  have ht : ∀ s : Text, textLeaf s = [] → textTok s = [] := by
    intro s hs
    unfold textLeaf at hs
    unfold textTok
    split at hs <;> simp_all
  induction its generalizing s with
  | nil => exact ht s h
  | cons it its ih =>
    cases it with
    | var n => simp [dqLeaves] at h
    | prop n p => simp [dqLeaves] at h
    | _ => exact ih _ h

theorem dqToks_code (its : List DqItem) (s : Text) : ∀ t ∈ dqToks s its, (!isComment t) = true := by
  have ht : ∀ s : Text, ∀ t ∈ textTok s, (!isComment t) = true := by
    intro s t ht
    unfold textTok at ht
    split at ht
    · cases ht
    · rw [List.mem_singleton.1 ht]; rfl
  induction its generalizing s with
  | nil => exact ht s
  | cons it its ih =>
    cases it with
    | var n =>
      intro t h
      rcases List.mem_append.1 h with h | h
      · exact ht s t h
      · rcases List.mem_cons.1 h with rfl | h
        · rfl
        · exact ih [] t h
    | prop n p =>
      intro t h
      rcases List.mem_append.1 h with h | h
      · exact ht s t h
      · rcases List.mem_cons.1 h with rfl | h
        · rfl
        rcases List.mem_cons.1 h with rfl | h
        · rfl
        rcases List.mem_cons.1 h with rfl | h
        · rfl
        · exact ih [] t h
    | _ => exact ih _

/-- The items of the script `<?php return "…";`. -/
def returnDq (its : List DqItem) : List Item :=
  [.gap c!" ", .lex (.word c!"return"), .gap c!" ", .dq its, .lex (.sym c!";" .SemiColon)]

theorem returnDq_script (its : List DqItem) (h : DqOk its) : Script (returnDq its) false := by
  have hb : Blank c!" " := by intro c hc; simp at hc; exact .inl hc
  refine ⟨⟨hb, ⟨rfl, by decide⟩, ⟨rfl, fun _ => ⟨fun h => absurd h (by decide), fun h => absurd h (by decide)⟩⟩, hb, h,
    (by decide : _ ∈ symbols), ⟨nofun, nofun, nofun⟩, trivial⟩, 0, rfl⟩

/-- **C25.** A string between double quotes, written with any text, escapes, variables `$a` and properties `$a->b`,
is parsed to a concatenation whose leaves, read left to right, are exactly the variables and properties and the
pieces of text between them, in order. (The empty string is the text without characters.) -/
theorem C25_interpolation (its : List DqItem) (h : DqOk its) :
    ∃ e ss, Ends (c!"<?php return \"" ++ dqSrc its ++ c!"\";") (.ok ss) ∧ eraseStmts ss = [bareS (.ret (some e))] ∧
      concatLeaves e = (if dqLeaves [] its = [] then [bare (.str [])] else dqLeaves [] its) := by
  have ht : scriptText (returnDq its) false = c!"<?php return \"" ++ dqSrc its ++ c!"\";" := by
    simp [scriptText, returnDq, render, Item.text, Lexeme.text]
  have hd := dqParts_derive its []
  have hl := dqParts_leaves its []
  have hc : codeToks (returnDq its) = .k .Return :: ((.k .DoubleQuote :: (dqToks [] its ++ [.k .DoubleQuote])) ++ [.k .SemiColon]) := by
    have hf : (dqToks [] its).filter (fun t => !isComment t) = dqToks [] its :=
      List.filter_eq_self.2 (dqToks_code its [])
    unfold codeToks
    have hr : Lexeme.tok false (.word c!"return") = .k .Return := by decide
    simp only [returnDq, toks, hr, List.filter_cons, List.filter_append, hf]
    simp [Lexeme.tok, isComment]
  have key : ∀ e, Derives (.expr 0 prefixLevel) (.k .DoubleQuote :: (dqToks [] its ++ [.k .DoubleQuote])) e →
      ∃ ss, Ends (c!"<?php return \"" ++ dqSrc its ++ c!"\";") (.ok ss) ∧ eraseStmts ss = [bareS (.ret (some e))] := by
    intro e he
    obtain ⟨ss, h1, h2⟩ := script_parses (returnDq its) false [bareS (.ret (some e))] (returnDq_script its h)
      (by rw [hc]; simp) (by
        rw [hc]
        have := DerivesX.tops_cons (.t_stmt (.s_return (.o_some he))) .tops_nil
        simpa using this)
    exact ⟨ss, ht ▸ h2, h1⟩
  cases hm : dqLeaves [] its with
  | nil =>
    rw [dqToks_nil its [] hm] at key
    obtain ⟨ss, h1, h2⟩ := key _ .e_emptyString
    exact ⟨_, ss, h1, h2, rfl⟩
  | cons e es =>
    rw [hm] at hl
    obtain ⟨ss, h1, h2⟩ := key _ (.e_string hd hl)
    refine ⟨_, ss, h1, h2, ?_⟩
    rw [concatAll_leaves e es (hm ▸ dqLeaves_leaf its [])]
    simp

/-- The hypotheses of `C25_interpolation` hold for `"x$a->b {\n$c"`. -/
example : DqOk [.plain 'x', .prop c!"a" c!"b", .plain ' ', .brace, .esc 'n' '\n', .var c!"c"] ∧
    dqLeaves [] [.plain 'x', .prop c!"a" c!"b", .plain ' ', .brace, .esc 'n' '\n', .var c!"c"] =
      [bare (.str c!"x"), bare (.objMember (bare (.var (.name c!"a"))) [bare (.path ⟨false, none, c!"b"⟩)]),
        bare (.str c!" {\n"), bare (.var (.name c!"c"))] := by
  refine ⟨⟨⟨?_, ?_, ?_, ?_⟩, ⟨rfl, rfl, rfl⟩, ⟨?_, ?_, ?_, ?_⟩, ?_, ?_, ⟨rfl, rfl, ?_, ?_⟩, trivial⟩, rfl⟩
  all_goals first | decide | (show ¬ _ <+: _; decide) | (show _ ∈ dqEscapes; decide) | skip
  intro r h
  cases h

end Pico
