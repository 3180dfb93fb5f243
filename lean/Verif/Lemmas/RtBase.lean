import Verif.Spec.RoundTrip
import Verif.Lemmas.LexItem
import Verif.Lemmas.LexPrint
import Verif.Lemmas.PrintOut
/-!
# Printed text as lexemes: building blocks of the round trip

`Piece a b P cs is ts`: the writes `cs` make the text of the items `is`, whose tokens are `ts`; with `d + a` open
braces before it there are `d + b` behind it; and the items can be told apart whenever what follows satisfies `P`.
-/
namespace Pico

theorem toks_append (is js : List Item) : ∀ p, toks p (is ++ js) = toks p is ++ toks (endsProp p is) js := by
  induction is with
  | nil => intro p; rfl
  | cons i is ih =>
    intro p
    cases i with
    | lex l => exact congrArg (List.cons _) (ih _)
    | gap w => exact ih p
    | dq its =>
      have := ih false
      simp only [List.cons_append, toks, endsProp, this, List.append_assoc]
    | block body => exact congrArg (List.cons _) (ih _)
    | line o body => exact congrArg (List.cons _) (ih _)

theorem endsProp_append (is js : List Item) : ∀ p, endsProp p (is ++ js) = endsProp (endsProp p is) js := by
  induction is with
  | nil => intro p; rfl
  | cons i is ih =>
    intro p
    cases i with
    | lex l => exact ih _
    | gap w => exact ih _
    | dq its => exact ih _
    | block body => exact ih _
    | line o body => exact ih _

theorem render_append (is js : List Item) : render (is ++ js) = render is ++ render js := by
  induction is with
  | nil => rfl
  | cons i is ih => simp only [List.cons_append, render, ih, List.append_assoc]

theorem apart_left {is js : List Item} {rest : Text} : ∀ {p : Bool}, Apart p (is ++ js) rest → Apart p is (render js ++ rest) := by
  induction is with
  | nil => intros; trivial
  | cons i is ih =>
    intro p h
    have hr : render (is ++ js) ++ rest = render is ++ (render js ++ rest) := by rw [render_append, List.append_assoc]
    cases i with
    | lex l => exact ⟨h.1, hr ▸ h.2.1, ih h.2.2⟩
    | gap w => exact ⟨h.1, ih h.2⟩
    | dq its => exact ⟨h.1, ih h.2⟩
    | block body => exact ⟨h.1, h.2.1, ih h.2.2⟩
    | line o body => exact ⟨h.1, h.2.1, hr ▸ h.2.2.1, ih h.2.2.2⟩

theorem braces_item (d : Nat) (i : Item) (hi : ∀ l, i ≠ .lex l) (is : List Item) : braces d (i :: is) = braces d is := by
  cases i with
  | lex l => exact absurd rfl (hi l)
  | _ => rfl

theorem braces_append (is js : List Item) : ∀ d, braces d (is ++ js) = (braces d is).bind fun d' => braces d' js := by
  induction is with
  | nil => intro d; rfl
  | cons i is ih =>
    intro d
    cases i with
    | lex l =>
      rw [List.cons_append, braces_lex, braces_lex]
      cases lexDepth d l with
      | none => rfl
      | some d' => exact ih d'
    | gap w => exact ih d
    | dq its => exact ih d
    | block body => exact ih d
    | line o body => exact ih d

theorem apart_append {is js : List Item} {rest : Text} : ∀ {p : Bool}, Apart p is (render js ++ rest) →
    Apart (endsProp p is) js rest → Apart p (is ++ js) rest := by
  induction is with
  | nil => intro p _ h; exact h
  | cons i is ih =>
    intro p h h'
    have hr : render (is ++ js) ++ rest = render is ++ (render js ++ rest) := by rw [render_append, List.append_assoc]
    cases i with
    | lex l => exact ⟨h.1, hr.symm ▸ h.2.1, ih h.2.2 h'⟩
    | gap w => exact ⟨h.1, ih h.2 h'⟩
    | dq its => exact ⟨h.1, ih h.2 h'⟩
    | block body => exact ⟨h.1, h.2.1, ih h.2.2 h'⟩
    | line o body => exact ⟨h.1, h.2.1, hr.symm ▸ h.2.2.1, ih h.2.2.2 h'⟩

/-- Not a comment. -/
def Item.isCode : Item → Bool
  | .lex _ => true
  | .gap _ => true
  | _ => false

/-- The chunks `cs` are printed as the items `is`, which stand for the tokens `ts` and lead from `a` to `b` open braces; `P` has to
hold of what follows. -/
structure Piece (a b : Nat) (P : Text → Prop) (cs : List Chunk) (is : List Item) (ts : List Token) : Prop where
  txt : chunkText cs = some (render is)
  tk : toks false is = ts
  ep : endsProp false is = false
  br : ∀ d, braces (d + a) is = some (d + b)
  ap : ∀ rest, P rest → Apart false is rest
  cd : is.all Item.isCode = true

/-- Anything may follow. -/
abbrev Any : Text → Prop := fun _ => True

variable {a b c : Nat} {P Q : Text → Prop} {cs cs' : List Chunk} {is js : List Item} {ts us : List Token}

theorem Piece.append (h : Piece a b P cs is ts) (h' : Piece b c Q cs' js us)
    (hx : ∀ rest, Q rest → Apart false js rest → P (render js ++ rest)) : Piece a c Q (cs ⧺ cs') (is ++ js) (ts ++ us) where
  txt := by
    rw [chunkText_append, h.txt, h'.txt, render_append]
    rfl
  tk := by rw [toks_append, h.ep, h.tk, h'.tk]
  ep := by rw [endsProp_append, h.ep, h'.ep]
  br d := by
    rw [braces_append, h.br]
    exact h'.br d
  ap rest hq := apart_append (h.ap _ (hx rest hq (h'.ap rest hq))) (by rw [h.ep]; exact h'.ap rest hq)
  cd := by rw [List.all_append, h.cd, h'.cd]; rfl

/-- A piece behind which anything may follow. -/
theorem Piece.free (h : Piece a b Any cs is ts) (h' : Piece b c Q cs' js us) : Piece a c Q (cs ⧺ cs') (is ++ js) (ts ++ us) :=
  h.append h' fun _ _ _ => trivial

theorem Piece.nil (P : Text → Prop) : Piece a a P [] [] [] := ⟨rfl, rfl, rfl, fun _ => rfl, fun _ _ => trivial, rfl⟩

theorem Piece.mono (h : Piece a b P cs is ts) (hm : ∀ rest, Q rest → P rest) : Piece a b Q cs is ts :=
  ⟨h.txt, h.tk, h.ep, h.br, fun rest hq => h.ap rest (hm rest hq), h.cd⟩

theorem Piece.up (h : Piece a b P cs is ts) (n : Nat) : Piece (a + n) (b + n) P cs is ts :=
  ⟨h.txt, h.tk, h.ep, fun d => by
    have := h.br (d + n)
    rw [show d + (a + n) = d + n + a by omega, show d + (b + n) = d + n + b by omega]
    exact this, h.ap, h.cd⟩

theorem Piece.text (h : Piece a b P cs is ts) (hc : chunkText cs' = chunkText cs) : Piece a b P cs' is ts :=
  ⟨hc.trans h.txt, h.tk, h.ep, h.br, h.ap, h.cd⟩

/-! ### Fixed texts -/

def blankB (w : Text) : Bool := w.all fun c => c == ' ' || c == '\t' || c == '\r' || c == '\n'

theorem blankB_iff {w : Text} (h : blankB w = true) : Blank w := by
  intro c hc
  have := List.all_eq_true.1 h c hc
  simp only [Bool.or_eq_true, beq_iff_eq] at this
  rcases this with ((h | h) | h) | h
  · exact .inl h
  · exact .inr (.inl h)
  · exact .inr (.inr (.inl h))
  · exact .inr (.inr (.inr h))

/-- The lexemes that occur in fixed texts. -/
def lexOkB : Lexeme → Bool
  | .word w => isIdentifier w && w != c!"yieldfrom" && w != c!"yield" && w != c!"b"
  | .sym w k => symbols.contains (w, k) && w != c!"." && k != .ObjectOp
  | _ => false

/-- They end in front of `c`. -/
def beforeB : Lexeme → Char → Bool
  | .word _, c => endsIdentifier [c]
  | .sym w _, c => stops w c && (w != c!"(" || !(c.isAlpha || c == ' ' || c == '\t'))
  | _, _ => false

def litOk : List Item → Bool
  | [] => true
  | .gap w :: is => blankB w && litOk is
  | .lex l :: is => lexOkB l && (match render is with | [] => is.isEmpty | c :: _ => beforeB l c) && litOk is
  | _ => false

/-- What has to hold of what follows a fixed text. -/
def litEnd : List Item → Text → Prop
  | [], _ => True
  | [.lex l], rest => l.Before false rest
  | _ :: is, rest => litEnd is rest

theorem castWords_alpha : ∀ x ∈ castWords, ∃ c r, x.1 = c :: r ∧ c.isAlpha = true := by
  intro x hx
  have h : ∀ x ∈ castWords, (match x.1 with | [] => false | c :: _ => c.isAlpha) = true := by decide
  have := h x hx
  cases hw : x.1 with
  | nil => rw [hw] at this; cases this
  | cons c r => rw [hw] at this; exact ⟨c, r, rfl, this⟩

theorem not_cast_head {c : Char} {r : Text} (h : (c.isAlpha || c == ' ' || c == '\t') = false) : ¬ CastAhead (c :: r) := by
  rintro ⟨b, w, b', r', hr, hb, -, k, hk⟩
  obtain ⟨x, y, hw, hx⟩ := castWords_alpha _ hk
  simp only [Bool.or_eq_false_iff, beq_eq_false_iff_ne] at h
  cases b with
  | nil =>
    dsimp only at hw
    rw [hw] at hr
    cases hr
    rw [h.1.1] at hx
    cases hx
  | cons z b =>
    cases hr
    rcases hb c (by simp) with h' | h'
    · exact h.1.2 h'
    · exact h.2 h'

theorem not_cast_nil : ¬ CastAhead [] := by
  rintro ⟨b, w, b', r', hr, -⟩
  have := congrArg List.length hr
  simp at this

theorem lexOkB_ok {l : Lexeme} (h : lexOkB l = true) : l.Ok ∧ l.isArrow = false := by
  cases l with
  | word w =>
    simp only [lexOkB, Bool.and_eq_true, bne_iff_ne] at h
    exact ⟨⟨h.1.1.1, h.1.1.2⟩, rfl⟩
  | sym w k =>
    simp only [lexOkB, Bool.and_eq_true, List.contains_iff_mem, bne_iff_ne] at h
    refine ⟨h.1.1, ?_⟩
    cases k <;> first | rfl | exact absurd rfl h.2
  | _ => cases h

theorem beforeB_before {l : Lexeme} {c : Char} {r : Text} (hl : lexOkB l = true) (h : beforeB l c = true) : l.Before false (c :: r) := by
  cases l with
  | word w =>
    simp only [lexOkB, Bool.and_eq_true, bne_iff_ne] at hl
    exact ⟨h, fun _ => ⟨fun hw => absurd hw hl.1.2, fun hw => absurd hw hl.2⟩⟩
  | sym w k =>
    simp only [beforeB, Bool.and_eq_true, Bool.or_eq_true, bne_iff_ne, Bool.not_eq_true'] at h
    refine ⟨?_, ?_, nofun⟩
    · intro c' hc'
      cases hc'
      exact h.1
    · intro hw
      exact not_cast_head (h.2.resolve_left fun h' => h' hw)
  | _ => cases hl

theorem litEnd_cons {i : Item} {is : List Item} {rest : Text} (hne : is ≠ []) (h : litEnd (i :: is) rest) : litEnd is rest := by
  cases is with
  | nil => exact absurd rfl hne
  | cons j is => cases i <;> exact h

theorem lit_apart : ∀ {is : List Item}, litOk is = true → ∀ {rest : Text}, litEnd is rest → Apart false is rest := by
  intro is
  induction is with
  | nil => intros; trivial
  | cons i is ih =>
    intro h rest he
    cases i with
    | gap w =>
      simp only [litOk, Bool.and_eq_true] at h
      refine ⟨blankB_iff h.1, ?_⟩
      by_cases hn : is = []
      · subst hn; trivial
      · exact ih h.2 (litEnd_cons hn he)
    | lex l =>
      unfold litOk at h
      rw [Bool.and_eq_true, Bool.and_eq_true] at h
      obtain ⟨⟨hl, hb⟩, hi⟩ := h
      obtain ⟨ho, ha⟩ := lexOkB_ok hl
      refine ⟨ho, ?_, ?_⟩
      · by_cases hn : is = []
        · subst hn
          exact he
        · cases hr : render is with
          | nil =>
            rw [hr] at hb
            exact absurd (List.isEmpty_iff.1 hb) hn
          | cons c r =>
            rw [hr] at hb
            exact beforeB_before hl hb
      · rw [ha]
        by_cases hn : is = []
        · subst hn; trivial
        · exact ih hi (litEnd_cons hn he)
    | dq its => cases h
    | block body => cases h
    | line o body => cases h

/-- The items of a fixed text. -/
def scanLit : Nat → Text → List Item
  | 0, _ => []
  | _ + 1, [] => []
  | n + 1, c :: cs =>
    if isBlank c then .gap ((c :: cs).takeWhile isBlank) :: scanLit n ((c :: cs).dropWhile isBlank)
    else if isIdChar c then .lex (.word ((c :: cs).takeWhile isIdChar)) :: scanLit n ((c :: cs).dropWhile isIdChar)
    else
      match (symbols.filter fun x => x.1.length == 3 && x.1.isPrefixOf (c :: cs)) ++
          (symbols.filter fun x => x.1.length == 2 && x.1.isPrefixOf (c :: cs)) ++
          (symbols.filter fun x => x.1.length == 1 && x.1.isPrefixOf (c :: cs)) with
      | [] => []
      | x :: _ => .lex (.sym x.1 x.2) :: scanLit n ((c :: cs).drop x.1.length)

def litItems (t : Text) : List Item := scanLit t.length t

/-- Nothing behind the symbol can belong to it. -/
def solid (s : Text) : Bool :=
  s != c!"." && s != c!"(" &&
    (c!"?>" :: c!"**=" :: c!"//" :: c!"/*" :: c!"<<<" :: symbols.map Prod.fst).all fun x => !(s.isPrefixOf x) || x.length ≤ s.length

theorem solid_stops {s : Text} (h : solid s = true) (c : Char) : stops s c = true := by
  unfold solid at h
  simp only [Bool.and_eq_true, bne_iff_ne] at h
  unfold stops
  rw [Bool.and_eq_true]
  refine ⟨?_, ?_⟩
  · refine List.all_eq_true.2 fun x hx => ?_
    have := List.all_eq_true.1 h.2 x hx
    rw [Bool.not_eq_true', ← Bool.not_eq_true, List.isPrefixOf_iff_prefix]
    intro hp
    have hl := hp.length_le
    rw [List.length_append, List.length_singleton] at hl
    have h1 : s.isPrefixOf x = true := List.isPrefixOf_iff_prefix.2 ((List.prefix_append s [c]).trans hp)
    rw [h1] at this
    simp at this
    omega
  · simp [h.1.1]

theorem solid_before {s : Text} {k : Kw} (h : solid s = true) (rest : Text) : (Lexeme.sym s k).Before false rest := by
  refine ⟨fun c _ => solid_stops h c, fun hs => ?_, fun hs => ?_⟩
  · subst hs; exact absurd h (by decide)
  · subst hs; exact absurd h (by decide)

/-- How a fixed text ends. -/
inductive LitEnd
  | any
  | opn
  | sym (s : Text)
  | word
  | bad
  deriving DecidableEq

def litLast : List Item → LitEnd
  | [] => .any
  | [.gap _] => .any
  | [.lex (.sym s _)] => if solid s then .any else if s == c!"(" then .opn else if s == c!"." then .bad else .sym s
  | [.lex (.word _)] => .word
  | [_] => .bad
  | _ :: is => litLast is

/-- What has to hold of what follows it. -/
def LitEnd.Holds : LitEnd → Text → Prop
  | .any, _ => True
  | .opn, rest => ¬ CastAhead rest
  | .sym s, rest => ∀ c, rest.head? = some c → stops s c = true
  | .word, rest => endsIdentifier rest = true
  | .bad, _ => False

theorem litLast_end : ∀ {is : List Item}, litOk is = true → ∀ {rest : Text}, (litLast is).Holds rest → litEnd is rest
  | [], _, _, _ => trivial
  | [.gap _], _, _, _ => trivial
  | [.lex (.sym s k)], _, rest, h => by
    unfold litLast at h
    split at h
    · exact solid_before ‹_› rest
    · split at h
      · rename_i hs
        rw [beq_iff_eq] at hs
        subst hs
        refine ⟨fun c _ => ?_, fun _ => h, nofun⟩
        unfold stops
        rw [Bool.and_eq_true]
        refine ⟨?_, by simp⟩
        refine List.all_eq_true.2 fun x hx => ?_
        have : ∀ x ∈ (c!"?>" :: c!"**=" :: c!"//" :: c!"/*" :: c!"<<<" :: symbols.map Prod.fst), x.head? = some '(' → x = c!"(" := by decide
        rw [Bool.not_eq_true', ← Bool.not_eq_true, List.isPrefixOf_iff_prefix]
        rintro ⟨r, hr⟩
        rw [← hr] at hx
        have := this _ hx rfl
        simp at this
      · rename_i hs
        simp only [beq_iff_eq] at hs
        split at h
        · exact h.elim
        · rename_i hd
          simp only [beq_iff_eq] at hd
          exact ⟨h, fun h' => absurd h' hs, fun h' => absurd h' hd⟩
  | [.lex (.word s)], ho, rest, h => by
    simp only [litOk, lexOkB, render, Bool.and_eq_true, bne_iff_ne] at ho
    exact ⟨h, fun _ => ⟨fun hw => absurd hw ho.1.1.1.2, fun hw => absurd hw ho.1.1.2⟩⟩
  | [.lex (.var _)], _, _, h => h.elim
  | [.lex (.int _ _)], _, _, h => h.elim
  | [.lex (.double _ _)], _, _, h => h.elim
  | [.lex (.str _ _)], _, _, h => h.elim
  | [.lex (.cast _ _ _ _)], _, _, h => h.elim
  | [.dq _], _, _, h => h.elim
  | [.block _], _, _, h => h.elim
  | [.line _ _], _, _, h => h.elim
  | i :: j :: is, ho, rest, h => by
    have hj : litOk (j :: is) = true := by
      cases i with
      | gap w => simp only [litOk, Bool.and_eq_true] at ho; exact ho.2
      | lex l => unfold litOk at ho; rw [Bool.and_eq_true] at ho; exact ho.2
      | dq its => cases ho
      | block b => cases ho
      | line o b => cases ho
    have h' : (litLast (j :: is)).Holds rest := by cases i with
      | lex l => cases l <;> exact h
      | _ => exact h
    have := litLast_end (is := j :: is) hj h'
    cases i <;> exact this

theorem braces_shift (is : List Item) : ∀ a b d, braces a is = some b → braces (d + a) is = some (d + b) := by
  induction is with
  | nil => intro a b d h; cases h; rfl
  | cons i is ih =>
    intro a b d h
    cases i with
    | lex l =>
      rw [braces_lex] at h ⊢
      cases l with
      | sym s k =>
        cases k with
        | CurlyBracesOpen => exact ih _ _ _ h
        | CurlyBracesClose =>
          simp only [lexDepth, symDepth] at h ⊢
          by_cases ha : a = 0
          · subst ha; cases h
          · rw [if_neg ha] at h
            rw [if_neg (by omega)]
            have := ih (a - 1) b d h
            rw [show d + a - 1 = d + (a - 1) by omega]
            exact this
        | _ => exact ih _ _ _ h
      | _ => exact ih _ _ _ h
    | gap w => exact ih _ _ _ h
    | dq its => exact ih _ _ _ h
    | block body => exact ih _ _ _ h
    | line o body => exact ih _ _ _ h

theorem lit_code : ∀ {is : List Item}, litOk is = true → is.all Item.isCode = true
  | [], _ => rfl
  | i :: is, h => by
    rw [List.all_cons, Bool.and_eq_true]
    cases i with
    | gap w => simp only [litOk, Bool.and_eq_true] at h; exact ⟨rfl, lit_code h.2⟩
    | lex l => unfold litOk at h; rw [Bool.and_eq_true] at h; exact ⟨rfl, lit_code h.2⟩
    | dq its => cases h
    | block b => cases h
    | line o b => cases h

def litCheck (t : Text) (a b : Nat) (e : LitEnd) : Bool :=
  litOk (litItems t) && (render (litItems t) == t && (!endsProp false (litItems t) && (braces a (litItems t) == some b &&
    litLast (litItems t) == e)))

/-- A fixed text: its tokens, the depth of braces before and behind it, and how it ends are checked by computation. -/
theorem lit (t : Text) (ts : List Token) (a b : Nat) (e : LitEnd) (h : litCheck t a b e = true) (ht : toks false (litItems t) = ts) :
    Piece a b e.Holds (w t) (litItems t) ts := by
  simp only [litCheck, Bool.and_eq_true, beq_iff_eq, Bool.not_eq_true'] at h
  refine ⟨?_, ht, h.2.2.1, fun d => braces_shift _ _ _ d h.2.2.2.1, fun rest hr => lit_apart h.1 (litLast_end h.1 (h.2.2.2.2 ▸ hr)), lit_code h.1⟩
  rw [h.2.1]
  simp [w, chunkText]

/-- A fixed text behind which anything may follow. -/
theorem litA (t : Text) (ts : List Token) (a b : Nat) (h : litCheck t a b .any = true) (ht : toks false (litItems t) = ts) :
    Piece a b Any (w t) (litItems t) ts := lit t ts a b .any h ht

/-- Indentation. -/
theorem piece_indent (i : Nat) : Piece a a Any (List.replicate i (Chunk.text c!"    ")) [.gap (List.replicate (4 * i) ' ')] [] := by
  refine ⟨?_, rfl, rfl, fun _ => rfl, fun _ _ => ⟨?_, trivial⟩, rfl⟩
  · induction i with
    | zero => rfl
    | succ i ih =>
      rw [List.replicate_succ, chunkText, ih]
      simp only [render, Item.text, Option.map_some, List.append_nil]
      rw [show 4 * (i + 1) = 4 * i + 1 + 1 + 1 + 1 by omega, List.replicate_succ, List.replicate_succ, List.replicate_succ,
        List.replicate_succ]
      rfl
  · intro c hc
    exact .inl (List.eq_of_mem_replicate hc)

/-- An indented fixed text. -/
theorem Piece.ind {t : Text} (i : Nat) (h : Piece a b P (w t) is ts) : Piece a b P (Pico.ind i t) (.gap (List.replicate (4 * i) ' ') :: is) ts :=
  (piece_indent i).free h

theorem piece_ind_nil (i : Nat) : Piece a a Any (Pico.ind i []) [.gap (List.replicate (4 * i) ' ')] [] :=
  ((piece_indent i).free (Piece.nil Any)).text (by rw [Pico.ind, chunkText_append, chunkText_append]; rfl)

/-! ### What may follow an expression -/

theorem dropWhile_all_append {p : Char → Bool} {w : Text} (h : w.all p = true) (r : Text) : (w ++ r).dropWhile p = r.dropWhile p := by
  induction w with
  | nil => rfl
  | cons c w ih =>
    rw [List.all_cons, Bool.and_eq_true] at h
    rw [List.cons_append, List.dropWhile_cons_of_pos h.1, ih h.2]

/-- What may follow a name: no letter, no quote, no `<<<`; and no `from`, which may not follow `yield`. -/
def fol (rest : Text) : Bool :=
  endsIdentifier rest && rest.head? != some '\'' && rest.head? != some '"' && !c!"<<<".isPrefixOf rest &&
    !c!"from".isPrefixOf (rest.dropWhile isBlank)

/-- What may follow an expression; `num`: it may end in a number. -/
def Fo (num : Bool) (rest : Text) : Prop := fol rest = true ∧ (num = true → rest.head? ≠ some '.')

theorem Fo.weak {rest : Text} {num : Bool} (h : Fo true rest) : Fo num rest := ⟨h.1, fun _ => h.2 rfl⟩

theorem Fo.ident {rest : Text} {num : Bool} (h : Fo num rest) : endsIdentifier rest = true := by
  have := h.1
  unfold fol at this
  simp only [Bool.and_eq_true] at this
  exact this.1.1.1.1

theorem Fo.number {rest : Text} (h : Fo true rest) : endsNumber rest = true := by
  have h1 := h.ident
  have h2 := h.2 rfl
  cases rest with
  | nil => rfl
  | cons c r =>
    simp only [endsIdentifier, endsNumber, Bool.and_eq_true, bne_iff_ne] at h1 ⊢
    exact ⟨h1.1, fun hc => h2 (by rw [hc]; rfl)⟩

theorem Fo.word {rest : Text} {num : Bool} (h : Fo num rest) (w : Text) : (Lexeme.word w).Before false rest := by
  refine ⟨h.ident, fun _ => ⟨fun _ => ?_, fun _ => ?_⟩⟩
  · rintro ⟨b, r, rfl, hb⟩
    have := h.1
    unfold fol at this
    simp only [Bool.and_eq_true] at this
    have h5 := this.2
    rw [List.append_assoc, dropWhile_all_append hb.all] at h5
    simp [isBlank] at h5
  · have := h.1
    unfold fol at this
    simp only [Bool.and_eq_true, bne_iff_ne, Bool.not_eq_true'] at this
    rintro (⟨r, rfl⟩ | ⟨r, rfl⟩ | ⟨r, rfl⟩)
    · exact this.1.1.1.2 rfl
    · exact this.1.1.2 rfl
    · have := this.1.2
      simp at this

/-- One lexeme as an item. -/
theorem piece_lex {t : Text} (l : Lexeme) (ht : l.text = t) (ha : l.isArrow = false) (ho : l.Ok)
    (hb : ∀ d, braces (d + a) [.lex l] = some (d + b)) : Piece a b (l.Before false) (w t) [.lex l] [l.tok false] := by
  refine ⟨?_, rfl, ha, hb, fun rest hr => ⟨ho, hr, trivial⟩, rfl⟩
  simp [w, chunkText, render, Item.text, ht]

example : Piece 0 1 Any (w c!") {\n") (litItems c!") {\n") [.k .ParenthesesClose, .k .CurlyBracesOpen] := litA _ _ _ _ (by decide) rfl
example : Piece 0 0 (LitEnd.Holds .opn) (w c!"isset(") (litItems c!"isset(") [.k .Isset, .k .ParenthesesOpen] := lit _ _ _ _ _ (by decide) rfl

end Pico
