import Verif.Lemmas.LexLit
import Verif.Lemmas.Utf8
/-!
# Single-quoted strings and comments
-/
namespace Pico
open T

variable {t : Tz} {i : Text}

/-- `t'` is `t` after moving to the remaining input `r`; only the line table may have changed. -/
structure Moved (t t' : Tz) (r : Text) : Prop where
  at' : At t' r
  code : t'.code = t.code
  state : t'.st.state = t.st.state
  stack : t'.st.stack = t.st.stack
  queue : t'.queue = t.queue

theorem Moved.adv {a r : Text} (h : At t (a ++ r)) : Moved t (t.adv (byteLen a)) r :=
  ⟨At.adv h, rfl, rfl, rfl, rfl⟩

theorem Moved.adv' {a r : Text} {n : Nat} (h : At t (a ++ r)) (hn : n = byteLen a) : Moved t (t.adv n) r := by
  subst hn; exact Moved.adv h

theorem Moved.ws {w r : Text} (h : At t (w ++ r)) (hw : w.all isBlank = true) : Moved t (t.ws w) r :=
  have hf := wsGo_fields w hw t.st
  ⟨At.ws h hw, rfl, hf.2.1, hf.2.2.1, rfl⟩

theorem Moved.trans {t t' t'' : Tz} {r r' : Text} (h : Moved t t' r) (h' : Moved t' t'' r') : Moved t t'' r' :=
  ⟨h'.at', h'.code.trans h.code, h'.state.trans h.state, h'.stack.trans h.stack,
    h'.queue.trans h.queue⟩

/-- Where a state with known code and remaining input stands. -/
theorem At.pos {r : Text} (h : At t r) : t.st.srcPos + byteLen r = byteLen t.code := dropBytes_le h

theorem At.nextLine {r : Text} (h : At t r) : At { t with st := t.st.nextLine } r := h

/-! ### Single-quoted strings -/

/-- The building blocks of the body of a single-quoted literal. -/
inductive SqItem
  | plain (c : Char)   -- the character itself
  | esc (c : Char)     -- a backslash or quote after a backslash
  | raw (c : Char)     -- any other character after a backslash, which is kept

/-- How it is written. -/
def SqItem.src : SqItem → Text
  | .plain c => [c]
  | .esc c => ['\\', c]
  | .raw c => ['\\', c]

/-- What it stands for. -/
def SqItem.val : SqItem → Text
  | .plain c => [c]
  | .esc c => [c]
  | .raw c => ['\\', c]

/-- It is what it says. -/
def SqItem.ok : SqItem → Bool
  | .plain c => c != '\\' && c != '\''
  | .esc c => c == '\\' || c == '\''
  | .raw c => c != '\\' && c != '\''

theorem sqLoop_plain (bak : TState) (f : Nat) (bytes : List Byte) {c : Char} {r : Text} (h : At t (c :: r))
    (hc : (c == '\\' || c == '\'' || c == '\n') = false) :
    sqLoop bak (f + 1) bytes t = sqLoop bak (f + 1) (bytes ++ encodeChar c) (t.adv c.utf8Size) := by
  have h1 : At t ([c] ++ r) := h
  have h2 : At (t.adv c.utf8Size) r := At.adv h1
  conv => lhs; unfold sqLoop
  conv => rhs; unfold sqLoop
  rw [bind_ok (input_at h), bind_ok (input_at h2)]
  have hpos : (position (fun x => x == '\\' || x == '\'' || x == '\n') (c :: r)).getD (c :: r).length =
      (position (fun x => x == '\\' || x == '\'' || x == '\n') r).getD r.length + 1 := by
    simp only [position, hc, Bool.false_eq_true, if_false]
    cases position (fun x => x == '\\' || x == '\'' || x == '\n') r <;> simp
  dsimp only
  rw [hpos]
  generalize hk : (position (fun x => x == '\\' || x == '\'' || x == '\n') r).getD r.length = k
  have hle : k ≤ r.length := by
    rw [← hk]
    have hgen : ∀ r : Text, (position (fun x => x == '\\' || x == '\'' || x == '\n') r).getD r.length ≤ r.length := by
      intro r
      induction r with
      | nil => simp [position]
      | cons d r ih =>
        simp only [position]
        split
        · simp
        · cases hp : position (fun x => x == '\\' || x == '\'' || x == '\n') r with
          | none => simp
          | some m => rw [hp] at ih; simpa using ih
    exact hgen r
  have h3 : At t ((c :: r.take k) ++ r.drop k) := by
    simpa using h
  have h4 : At (t.adv c.utf8Size) (r.take k ++ r.drop k) := by simpa using h2
  rw [bind_ok (advanceChars_at h3 (by simp [hle])), bind_ok (advanceChars_at h4 (by simp [hle]))]
  rw [encode_cons, ← List.append_assoc, Tz.adv_adv]
  rfl

theorem sqLoop_newline (bak : TState) (f : Nat) (bytes : List Byte) {r : Text} (h : At t ('\n' :: r)) :
    sqLoop bak (f + 1) bytes t = sqLoop bak f (bytes ++ [10]) { (t.adv 1) with st := (t.adv 1).st.nextLine } := by
  have h1 : At t (c!"\n" ++ r) := h
  conv => lhs; unfold sqLoop
  rw [bind_ok (input_at h)]
  refine (bind_ok (advanceChars_at (a := []) h rfl)).trans ?_
  refine (bind_ok (input_at h)).trans ?_
  simp only [List.head?_cons]
  refine (bind_ok (advanceBytes_at' h1 rfl)).trans ?_
  tstep (()) { (t.adv 1) with st := (t.adv 1).st.nextLine }
  simp [encode]

theorem sqLoop_escape (bak : TState) (f : Nat) (bytes : List Byte) {c : Char} {r : Text} (h : At t ('\\' :: c :: r)) :
    sqLoop bak (f + 1) bytes t =
      sqLoop bak f (bytes ++ encode (if c == '\\' || c == '\'' then [c] else ['\\', c])) (t.adv (1 + c.utf8Size)) := by
  have h1 : At t (['\\', c] ++ r) := h
  conv => lhs; unfold sqLoop
  rw [bind_ok (input_at h)]
  refine (bind_ok (advanceChars_at (a := []) h rfl)).trans ?_
  refine (bind_ok (input_at h)).trans ?_
  simp only [List.head?_cons]
  have hdone : ∀ bs, escDone bs t = .ok bs (t.adv (1 + c.utf8Size)) := by
    intro bs
    exact bind_ok (advanceChars_at h1 rfl)
  refine (bind_ok (a := bytes ++ encode (if c == '\\' || c == '\'' then [c] else ['\\', c])) ?_).trans rfl
  unfold strEscape
  rw [bind_ok (input_at h)]
  simp only [List.getElem?_cons_succ, List.getElem?_cons_zero, Bool.not_true, Bool.false_and,
    Bool.false_eq_true, if_false, Bool.true_and]
  by_cases hq : (c == '\'') = true
  · rw [if_pos hq, hdone]
    rw [beq_iff_eq] at hq
    subst hq
    simp [encode, encodeChar]
  · rw [if_neg hq]
    by_cases hb : (c == '\\') = true
    · rw [if_pos hb, hdone]
      rw [beq_iff_eq] at hb
      subst hb
      simp [encode, encodeChar]
    · rw [if_neg hb, hdone]
      rw [if_neg (by simp_all)]
      simp [encode, encodeChar]

theorem sqLoop_items (bak : TState) (its : List SqItem) (hok : ∀ x ∈ its, x.ok = true) (f : Nat) (hf : its.length ≤ f)
    (bytes : List Byte) {r : Text} {t : Tz} (h : At t (its.flatMap SqItem.src ++ '\'' :: r)) :
    ∃ t', sqLoop bak (f + 1) bytes t = .ok (bytes ++ encode (its.flatMap SqItem.val)) t' ∧ Moved t t' r := by
  induction its generalizing f bytes t with
  | nil =>
    have h' : At t ('\'' :: r) := h
    have h1 : At t (c!"'" ++ r) := h
    refine ⟨t.adv 1, ?_, Moved.adv' h1 (by decide)⟩
    unfold sqLoop
    rw [bind_ok (input_at h')]
    refine (bind_ok (advanceChars_at (a := []) h' rfl)).trans ?_
    refine (bind_ok (input_at h')).trans ?_
    simp only [List.head?_cons]
    refine (bind_ok (advanceBytes_at' h1 rfl)).trans ?_
    rfl
  | cons x its ih =>
    have hx := hok x (by simp)
    have hrest : ∀ y ∈ its, y.ok = true := fun y hy => hok y (by simp [hy])
    obtain ⟨f, rfl⟩ : ∃ g, f = g + 1 := ⟨f - 1, by simp at hf; omega⟩
    simp only [List.length_cons] at hf
    have hesc : ∀ c, x.src = ['\\', c] → x.val = (if c == '\\' || c == '\'' then [c] else ['\\', c]) →
        ∃ t', sqLoop bak (f + 1 + 1) bytes t = .ok (bytes ++ encode ((x :: its).flatMap SqItem.val)) t' ∧ Moved t t' r := by
      intro c hs hv
      have h1 : At t (['\\', c] ++ (its.flatMap SqItem.src ++ '\'' :: r)) := by
        simpa [hs] using h
      have hm := Moved.adv h1
      obtain ⟨t', ht, hm'⟩ := ih hrest f (by omega) (bytes ++ encode x.val) hm.at'
      refine ⟨t', ?_, hm.trans hm'⟩
      rw [sqLoop_escape bak (f + 1) bytes h1, ← hv]
      refine Eq.trans ?_ (ht.trans ?_)
      · have : byteLen ['\\', c] = 1 + c.utf8Size := by simp [byteLen, Char.utf8Size]
        rw [this]
      · simp [encode_append]
    cases x with
    | plain c =>
      simp only [SqItem.ok, Bool.and_eq_true, bne_iff_ne] at hx
      have h1 : At t ([c] ++ (its.flatMap SqItem.src ++ '\'' :: r)) := by
        simpa [SqItem.src] using h
      have hm := Moved.adv h1
      by_cases hn : c = '\n'
      · subst hn
        have hm2 : Moved t { (t.adv 1) with st := (t.adv 1).st.nextLine } (its.flatMap SqItem.src ++ '\'' :: r) :=
          ⟨hm.at', rfl, rfl, rfl, rfl⟩
        obtain ⟨t', ht, hm'⟩ := ih hrest f (by omega) (bytes ++ [10]) hm2.at'
        refine ⟨t', ?_, hm2.trans hm'⟩
        rw [sqLoop_newline bak (f + 1) bytes h1, ht]
        simp [SqItem.val, encode, encodeChar]
      · obtain ⟨t', ht, hm'⟩ := ih hrest (f + 1) (by omega) (bytes ++ encodeChar c) hm.at'
        refine ⟨t', ?_, hm.trans hm'⟩
        rw [sqLoop_plain bak (f + 1) bytes h1 (by simp [hx, hn])]
        have : byteLen [c] = c.utf8Size := by simp [byteLen]
        rw [← this, ht]
        simp [SqItem.val, encode]
    | esc c =>
      simp only [SqItem.ok] at hx
      exact hesc c rfl (by rw [if_pos hx]; rfl)
    | raw c =>
      simp only [SqItem.ok, Bool.and_eq_true, bne_iff_ne] at hx
      exact hesc c rfl (by rw [if_neg (by simp [hx])]; rfl)

theorem items_length (its : List SqItem) : its.length ≤ (its.flatMap SqItem.src).length := by
  induction its with
  | nil => simp
  | cons x its ih =>
    simp only [List.flatMap_cons, List.length_append, List.length_cons]
    have : 1 ≤ x.src.length := by cases x <;> simp [SqItem.src]
    omega

theorem sqString_some (its : List SqItem) (hok : ∀ x ∈ its, x.ok = true) {r : Text}
    (h : At t ('\'' :: (its.flatMap SqItem.src ++ '\'' :: r))) :
    ∃ t', matchSqString t = .ok ⟨.encaps (its.flatMap SqItem.val), mkSpan t.st.srcPos t'.st.srcPos⟩ t' ∧
      Moved t t' r := by
  have h1 : At t (c!"'" ++ (its.flatMap SqItem.src ++ '\'' :: r)) := h
  have hm := Moved.adv h1
  obtain ⟨t', ht, hm'⟩ := sqLoop_items t.st its hok
    (('\'' :: (its.flatMap SqItem.src ++ '\'' :: r)).length)
    (by have := items_length its; simp only [List.length_cons, List.length_append]; omega) [] hm.at'
  refine ⟨t', ?_, hm.trans hm'⟩
  unfold matchSqString
  rw [bind_ok (input_at h)]
  rw [if_neg (by
    simp only [byteLen, byteLen_append]
    have h1 : ('\'' : Char).utf8Size = 1 := by decide
    omega)]
  tstep (t.st) t
  rw [if_neg (by simp [startsWith]), if_pos (by simp [startsWith])]
  refine (bind_ok (advanceBytes_at' h1 rfl)).trans ?_
  refine (bind_ok ht).trans ?_
  refine (bind_ok inputPos_at).trans ?_
  simp only [List.nil_append, bytesToken, decode_encode]
  rfl

/-! ### Comments -/

theorem repeatN_nextLine (n : Nat) (s : TState) :
    (repeatN TState.nextLine n s).srcPos = s.srcPos ∧ (repeatN TState.nextLine n s).state = s.state ∧
    (repeatN TState.nextLine n s).stack = s.stack ∧ (repeatN TState.nextLine n s).restart = s.restart := by
  induction n generalizing s with
  | zero => simp [repeatN]
  | succ n ih =>
    simp only [repeatN]
    obtain ⟨h1, h2, h3, h4⟩ := ih s.nextLine
    exact ⟨h1, h2, h3, h4⟩

theorem commentDone_ok (old : Nat) (doc : Bool) (c : Text) {r : Text} (h : At t r) :
    ∃ t', commentDone old doc c t =
      .ok ⟨.comment c, { mkSpan old t.st.srcPos with doc := if doc then some [] else none }⟩ t' ∧ Moved t t' r := by
  obtain ⟨h1, h2, h3, h4⟩ := repeatN_nextLine (linesCount c - 1) t.st
  refine ⟨{ t with st := repeatN TState.nextLine (linesCount c - 1) t.st }, ?_, ?_, rfl, h2, h3, rfl⟩
  · unfold commentDone
    tstep (()) { t with st := repeatN TState.nextLine (linesCount c - 1) t.st }
    refine (bind_ok inputPos_at).trans ?_
    rw [h1]
    rfl
  · unfold At
    rw [h1]
    exact h

theorem position_le (p : Char → Bool) (i : Text) (d : Nat) (hd : i.length ≤ d) :
    i.take ((position p i).getD d) = i.takeWhile (fun c => !p c) := by
  induction i generalizing d with
  | nil => simp
  | cons c i ih =>
    simp only [position, List.takeWhile_cons]
    by_cases hc : p c = true
    · simp [hc]
    · simp only [hc, Bool.false_eq_true, if_false, Bool.not_false, if_true]
      simp only [List.length_cons] at hd
      obtain ⟨e, rfl⟩ : ∃ e, d = e + 1 := ⟨d - 1, by omega⟩
      have : ((position p i).map (· + 1)).getD (e + 1) = (position p i).getD e + 1 := by
        cases position p i <;> simp
      rw [this]
      simp [ih e (by omega)]

theorem length_le_byteLen (i : Text) : i.length ≤ byteLen i := by
  induction i with
  | nil => simp [byteLen]
  | cons c i ih => simp only [byteLen, List.length_cons]; have := Char.utf8Size_pos c; omega

/-- One-line comments. -/
theorem lineComment_ok (pre : Text) {body r : Text} (h : At t (pre ++ (body ++ r)))
    (hb : ∀ c ∈ body, c ≠ '\n') (hr : ∀ c, r.head? = some c → c = '\n') :
    ∃ t' sp, lineComment t.st.srcPos (byteLen pre) t = .ok ⟨.comment body, sp⟩ t' ∧ Moved t t' r ∧
      sp.start = t.st.srcPos ∧ sp.stop = t'.st.srcPos := by
  have hm := Moved.adv h
  have hm2 := Moved.adv hm.at'
  obtain ⟨t', ht, hm3⟩ := commentDone_ok t.st.srcPos false body hm2.at'
  refine ⟨t', { mkSpan t.st.srcPos ((t.adv (byteLen pre)).adv (byteLen body)).st.srcPos with
      doc := if false then some [] else none }, ?_, hm.trans (hm2.trans hm3), ?_, ?_⟩
  · unfold lineComment
    rw [bind_ok (advanceBytes_at h), bind_ok (input_at hm.at')]
    have hp : ∀ d, (body ++ r).length ≤ d → (body ++ r).take ((position (· == '\n') (body ++ r)).getD d) = body := by
      intro d hd
      rw [position_le _ _ _ hd, List.takeWhile_append_of_pos (by intro c hc; simp [hb c hc])]
      cases r with
      | nil => simp
      | cons c r => simp [hr c rfl]
    have hp' := hp (byteLen (body ++ r)) (length_le_byteLen _)
    have ha : advanceChars ((position (· == '\n') (body ++ r)).getD (byteLen (body ++ r))) (t.adv (byteLen pre)) =
        .ok body ((t.adv (byteLen pre)).adv (byteLen body)) := by
      unfold advanceChars
      rw [bind_ok (input_at hm.at'), hp']
      exact advanceBytes_at hm.at'
    rw [bind_ok ha]
    exact ht
  · rfl
  · have h1 := hm2.at'.pos
    have h2 := hm3.at'.pos
    rw [hm3.code] at h2
    show ((t.adv (byteLen pre)).adv (byteLen body)).st.srcPos = _
    omega

theorem beforeSub_none {pat s : Text} (h : ¬ pat <:+: s) : beforeSub pat s = none := by
  have hs : ∀ s : Text, ¬ pat <:+: s → startsWith s pat = false := by
    intro s hi
    cases hs : startsWith s pat with
    | false => rfl
    | true =>
      obtain ⟨r, rfl⟩ := startsWith_split hs
      exact absurd (List.prefix_append pat r).isInfix hi
  induction s with
  | nil =>
    unfold beforeSub
    rw [hs [] h]
    rfl
  | cons c s ih =>
    unfold beforeSub
    rw [hs _ h, ih (fun hi => h (hi.trans (List.suffix_cons c s).isInfix))]
    rfl

theorem beforeSub_found {a b : Char} (hab : a ≠ b) {body r : Text} (hb : ¬ [a, b] <:+: body) :
    beforeSub [a, b] (body ++ a :: b :: r) = some body := by
  induction body with
  | nil => simp [beforeSub, startsWith]
  | cons c body ih =>
    have h1 : ¬ [a, b] <:+: body := fun h => hb (h.trans (List.suffix_cons c body).isInfix)
    have h2 : startsWith (c :: (body ++ a :: b :: r)) [a, b] = false := by
      cases hs : startsWith (c :: (body ++ a :: b :: r)) [a, b] with
      | false => rfl
      | true =>
        exfalso
        simp only [startsWith, Bool.and_eq_true, beq_iff_eq] at hs
        obtain ⟨rfl, hs⟩ := hs
        cases body with
        | nil =>
          simp only [List.nil_append, startsWith, Bool.and_true, beq_iff_eq] at hs
          exact hab hs
        | cons d body =>
          simp only [List.cons_append, startsWith, Bool.and_true, beq_iff_eq] at hs
          subst hs
          exact hb (List.prefix_append [c, d] body).isInfix
    simp only [List.cons_append, beforeSub, h2, Bool.false_eq_true, if_false, ih h1]
    rfl

/-- Block comments after their opener. -/
theorem blockComment_ok (pre : Text) (doc : Bool) {body r : Text} (h : At t (pre ++ (body ++ '*' :: '/' :: r)))
    (hb : ¬ c!"*/" <:+: body) :
    ∃ t' sp, blockComment t.st.srcPos (byteLen pre) doc t = .ok ⟨.comment body, sp⟩ t' ∧ Moved t t' r ∧
      sp.start = t.st.srcPos ∧ sp.stop = t'.st.srcPos := by
  have hm := Moved.adv h
  have hm2 := Moved.adv hm.at'
  have h3 : At ((t.adv (byteLen pre)).adv (byteLen body)) (c!"*/" ++ r) := hm2.at'
  have hm3 : Moved _ (((t.adv (byteLen pre)).adv (byteLen body)).adv 2) r := Moved.adv' h3 (by decide)
  obtain ⟨t', ht, hm4⟩ := commentDone_ok t.st.srcPos doc body hm3.at'
  refine ⟨t', { mkSpan t.st.srcPos (((t.adv (byteLen pre)).adv (byteLen body)).adv 2).st.srcPos with
      doc := if doc then some [] else none }, ?_, hm.trans (hm2.trans (hm3.trans hm4)), rfl, ?_⟩
  · unfold blockComment
    rw [bind_ok (advanceBytes_at h), bind_ok (input_at hm.at')]
    rw [beforeSub_found (by decide) hb]
    dsimp only
    rw [bind_ok (advanceBytes_at hm.at')]
    rw [bind_ok (advanceBytes_at' h3 (by decide))]
    exact ht
  · have h1 := hm3.at'.pos
    have h2 := hm4.at'.pos
    rw [hm4.code] at h2
    show (((t.adv (byteLen pre)).adv (byteLen body)).adv 2).st.srcPos = _
    omega

end Pico
