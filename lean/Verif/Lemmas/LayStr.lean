import Verif.Lemmas.LayNum
/-! # What stands in literals -/
namespace Pico
open T

section
variable {t : Tz}

theorem utf8_one (c : Char) : utf8 [c] = encodeChar c := by rw [utf8_eq]; simp [encode]
theorem utf8_append (a b : Text) : utf8 (a ++ b) = utf8 a ++ utf8 b := by simp [utf8]

theorem noPrefix_of {i p : Text} (h : ¬ startsWith i p = true) : ¬ p <+: i := by
  rintro ⟨r, rfl⟩
  exact h (startsWith_append p r)

theorem escDone_lay {x : Char} {r : Text} {bs : List Byte} {E : SyntaxErr → Tz → Prop} (h : At t ('\\' :: x :: r)) :
    Twp True True (escDone bs) t (fun b t' => b = bs ∧ Lay t ['\\', x] t' r) E := by
  unfold escDone
  refine Twp.bind (tw_advChars h fun _ => ⟨rfl, ?_⟩)
  have h' : At t (['\\', x] ++ r) := h
  exact .adv h'

theorem sqEscape_lay {bytes : List Byte} {i : Text} (h : At t ('\\' :: i)) :
    Twp True True (strEscape bytes true) t
      (fun b t' => ∃ e v r, b = bytes ++ v ∧ Lay t e t' r ∧ SqEscape e v) (fun e _ => e ≠ .none) := by
  unfold strEscape
  refine Twp.bind (Twp.of_ok (input_at h) ?_)
  cases i with
  | nil => exact Twp.bind (tw_inputPos (Twp.fail nofun))
  | cons x r =>
    simp only [Bool.not_true, Bool.false_and, Bool.false_eq_true, if_false, Bool.true_and, List.getElem?_cons_succ, List.getElem?_cons_zero]
    refine Twp.ite (fun hx => ?_) (fun hx => ?_)
    · obtain rfl := eq_of_beq hx
      exact (escDone_lay h).cons (fun b t' ⟨hb, hl⟩ => ⟨_, _, _, hb, hl, .known _ (.inr rfl)⟩) (fun _ _ h => h)
    · refine Twp.ite (fun hx2 => ?_) (fun hx2 => ?_)
      · obtain rfl := eq_of_beq hx2
        exact (escDone_lay h).cons (fun b t' ⟨hb, hl⟩ => ⟨_, _, _, hb, hl, .known _ (.inl rfl)⟩) (fun _ _ h => h)
      · refine (escDone_lay h).cons (fun b t' ⟨hb, hl⟩ => ⟨_, utf8 ['\\', x], _, ?_, hl, .other _ ⟨?_, ?_⟩⟩) (fun _ _ h => h)
        · rw [hb, show ['\\', x] = ['\\'] ++ [x] from rfl, utf8_append, utf8_one x, List.append_assoc]; rfl
        · rintro rfl; exact hx2 rfl
        · rintro rfl; exact hx rfl

theorem dqEscape_lay {bytes : List Byte} {i : Text} (h : At t ('\\' :: i)) :
    Twp True True (strEscape bytes false) t
      (fun b t' => ∃ e v r, b = bytes ++ v ∧ Lay t e t' r ∧ DqEscape e v r) (fun e _ => e ≠ .none) := by
  unfold strEscape
  refine Twp.bind (Twp.of_ok (input_at h) ?_)
  cases i with
  | nil => exact Twp.bind (tw_inputPos (Twp.fail nofun))
  | cons x r =>
    simp only [Bool.not_false, Bool.true_and, Bool.false_and, Bool.false_eq_true, if_false, List.getElem?_cons_succ, List.getElem?_cons_zero]
    have known : ∀ c v : Char, (c, v) ∈ dqEscapes → x = c → ∀ bs, bs = bytes ++ utf8 [v] →
        Twp True True (escDone bs) t
          (fun b t' => ∃ e v r, b = bytes ++ v ∧ Lay t e t' r ∧ DqEscape e v r) (fun e _ => e ≠ .none) := by
      rintro c v hc rfl bs hbs
      exact (escDone_lay h).cons (fun b t' ⟨hb, hl⟩ => ⟨_, _, _, hb.trans hbs, hl, .known _ v hc⟩) (fun _ _ h => h)
    refine Twp.ite (fun hx => known 'n' '\n' (by decide) (eq_of_beq hx) _ rfl) (fun n1 => ?_)
    refine Twp.ite (fun hx => known 'r' '\r' (by decide) (eq_of_beq hx) _ rfl) (fun n2 => ?_)
    refine Twp.ite (fun hx => known 't' '\t' (by decide) (eq_of_beq hx) _ rfl) (fun n3 => ?_)
    refine Twp.ite (fun hx => known 'f' (Char.ofNat 12) (by decide) (eq_of_beq hx) _ rfl) (fun n4 => ?_)
    refine Twp.ite (fun hx => known 'v' (Char.ofNat 11) (by decide) (eq_of_beq hx) _ rfl) (fun n5 => ?_)
    refine Twp.ite (fun hx => Twp.abort fun _ => trivial) (fun n6 => ?_)
    refine Twp.ite (fun hx => known '"' '"' (by decide) (eq_of_beq hx) _ rfl) (fun n7 => ?_)
    refine Twp.ite (fun hx => known '\\' '\\' (by decide) (eq_of_beq hx) _ rfl) (fun n8 => ?_)
    refine Twp.ite (fun hx => known '$' '$' (by decide) (eq_of_beq hx) _ rfl) (fun n9 => ?_)
    refine Twp.ite (fun hx => ?_) (fun n10 => ?_)
    · simp only [Bool.or_eq_true, beq_iff_eq] at hx
      refine Twp.ite (fun he => ?_) (fun he => ?_)
      · refine (escDone_lay h).cons (fun b t' ⟨hb, hl⟩ => ⟨_, utf8 ['\\', x], _, ?_, hl, .other _ ?_ ?_⟩) (fun _ _ h => h)
        · rw [hb]; rcases hx with rfl | rfl <;> rfl
        · rcases hx with rfl | rfl <;> decide
        · intro _ d hd
          cases r with
          | nil => cases hd
          | cons c r =>
            cases hd
            rw [← isAlnum_iff]
            unfold hexEnd at he
            simp only [List.getElem?_cons_succ, List.getElem?_cons_zero] at he
            cases ha : isAlnum d with
            | false => rfl
            | true =>
              simp only [ha, if_true] at he
              split at he
              · split at he <;> cases he
              · cases he
      · refine Twp.ite (fun _ => Twp.abort fun _ => trivial) (fun hlen => ?_)
        cases hf : fromStrRadix 255 16 ((('\\' :: x :: r).take (hexEnd ('\\' :: x :: r) + 1)).drop 2) with
        | none => exact Twp.abort fun _ => trivial
        | some v =>
          refine Twp.bind (tw_advChars h fun _ => ?_)
          obtain ⟨f1, f2, f3, f4⟩ := fromStrRadix_inv hf
          have key : ∃ ds rest, r = ds ++ rest ∧ hexEnd ('\\' :: x :: r) = ds.length + 1 ∧
              (ds.length = 2 ∨ ds.length = 1 ∧ ∀ c, rest.head? = some c → c.isAlphanum = false) := by
            unfold hexEnd at he hlen ⊢
            simp only [List.getElem?_cons_succ, List.getElem?_cons_zero] at he hlen ⊢
            cases r with
            | nil => exact absurd rfl he
            | cons c r =>
              simp only [List.getElem?_cons_succ, List.getElem?_cons_zero] at he hlen ⊢
              cases ha : isAlnum c with
              | false => simp [ha] at he
              | true =>
                simp only [ha, if_true] at he hlen ⊢
                cases r with
                | nil => exact ⟨[c], [], rfl, rfl, .inr ⟨rfl, nofun⟩⟩
                | cons d r =>
                  simp only [List.getElem?_cons_zero]
                  cases hb : isAlnum d with
                  | true => exact ⟨[c, d], r, rfl, rfl, .inl rfl⟩
                  | false => exact ⟨[c], d :: r, rfl, rfl, .inr ⟨rfl, fun e he => by cases he; rw [← isAlnum_iff]; exact hb⟩⟩
          obtain ⟨ds, rest, rfl, hl, hk⟩ := key
          have htake : ('\\' :: x :: (ds ++ rest)).take (1 + hexEnd ('\\' :: x :: (ds ++ rest))) = '\\' :: x :: ds := by
            rw [hl, show 1 + (ds.length + 1) = ds.length + 1 + 1 by omega]
            simp
          have htake' : ('\\' :: x :: (ds ++ rest)).take (hexEnd ('\\' :: x :: (ds ++ rest)) + 1) = '\\' :: x :: ds := by
            rw [Nat.add_comm]; exact htake
          rw [htake'] at f1 f2 f3
          rw [htake]
          have h' : At t (('\\' :: x :: ds) ++ rest) := h
          exact ⟨_, _, rest, by rw [f3]; rfl, .adv h', .hex x ds hx hk fun c hc => hexDigit_of (f2 c hc)⟩
    · refine Twp.ite (fun hx => Twp.abort fun _ => trivial) (fun n11 => ?_)
      refine (escDone_lay h).cons (fun b t' ⟨hb, hl⟩ => ⟨_, utf8 ['\\', x], _, ?_, hl, .other _ ?_ ?_⟩) (fun _ _ h => h)
      · rw [hb, show ['\\', x] = ['\\'] ++ [x] from rfl, utf8_append, utf8_one x, List.append_assoc]; rfl
      · simp only [beq_iff_eq] at *
        intro hm
        have : c!"nrtfve\"\\$u" = ['n', 'r', 't', 'f', 'v', 'e', '"', '\\', '$', 'u'] := rfl
        simp_all
      · rintro (rfl | rfl) <;> exact absurd rfl n10

/-! ### Fragments -/

/-- The tokens and bytes collected while going over the fragments. -/
def Eff (bytes : List Byte) (parts : List TokSpan) (fs : List Snip) (bytes' : List Byte) (parts' : List TokSpan) : Prop :=
  ∃ mid, parts'.map TokSpan.tok = parts.map TokSpan.tok ++ mid ∧
    ∀ gs ts, Parts bytes' gs ts → Parts bytes (fs ++ gs) (mid ++ ts)

theorem Eff.refl (bytes : List Byte) (parts : List TokSpan) : Eff bytes parts [] bytes parts :=
  ⟨[], by simp, fun _ _ h => h⟩

theorem Eff.trans {b b1 b2 : List Byte} {p p1 p2 : List TokSpan} {fs gs : List Snip} (h : Eff b p fs b1 p1) (h' : Eff b1 p1 gs b2 p2) :
    Eff b p (fs ++ gs) b2 p2 := by
  obtain ⟨m, e, k⟩ := h
  obtain ⟨m', e', k'⟩ := h'
  refine ⟨m ++ m', by rw [e', e, List.append_assoc], fun xs ts hx => ?_⟩
  rw [List.append_assoc, List.append_assoc]
  exact k _ _ (k' _ _ hx)

theorem Eff.plain (b : List Byte) (p : List TokSpan) (w : Text) : Eff b p (w.map .plain) (b ++ encode w) p := by
  rw [← utf8_eq]
  refine ⟨[], by simp, fun gs ts h => ?_⟩
  induction w generalizing b with
  | nil => simpa [utf8] using h
  | cons c w ih =>
    refine .plain c (ih _ ?_)
    rw [List.append_assoc, ← utf8_append]
    exact h

theorem Eff.char (b : List Byte) (p : List TokSpan) (c : Char) {bs : List Byte} (hb : bs = utf8 [c]) :
    Eff b p [.plain c] (b ++ bs) p := by
  subst hb
  exact ⟨[], by simp, fun gs ts h => .plain c h⟩

theorem Eff.esc (b : List Byte) (p : List TokSpan) (e : Text) (v : List Byte) : Eff b p [.esc e v] (b ++ v) p :=
  ⟨[], by simp, fun gs ts h => .esc e v h⟩

theorem fragSrc_append (fs gs : List Snip) : fragSrc (fs ++ gs) = fragSrc fs ++ fragSrc gs := by simp [fragSrc]
theorem fragSrc_plain (w : Text) : fragSrc (w.map .plain) = w := by
  induction w with
  | nil => rfl
  | cons c w ih => show [c] ++ fragSrc (w.map .plain) = c :: w; rw [ih]; rfl
theorem fragSrc_one (f : Snip) : fragSrc [f] = f.src := by simp [fragSrc]

theorem FragsOk.append {q : Quote} {fs gs : List Snip} {rest : Text} (h : FragsOk q fs (fragSrc gs ++ rest)) (h' : FragsOk q gs rest) :
    FragsOk q (fs ++ gs) rest := by
  induction fs with
  | nil => exact h'
  | cons f fs ih =>
    refine ⟨?_, ih h.2⟩
    show f.Ok q (fragSrc (fs ++ gs) ++ rest)
    rw [fragSrc_append, List.append_assoc]
    exact h.1

theorem FragsOk.plain {q : Quote} {w rest : Text} (h : ∀ c ∈ w, ∀ r, (Snip.plain c).Ok q r) : FragsOk q (w.map .plain) rest := by
  induction w with
  | nil => trivial
  | cons c w ih => exact ⟨h c (by simp) _, ih fun d hd => h d (by simp [hd])⟩

theorem FragsOk.one {q : Quote} {f : Snip} {rest : Text} (h : f.Ok q rest) : FragsOk q [f] rest := ⟨h, trivial⟩

theorem fragBytes_append (fs gs : List Snip) : fragBytes (fs ++ gs) = fragBytes fs ++ fragBytes gs := by
  induction fs with
  | nil => rfl
  | cons f fs ih => cases f <;> simp [fragBytes, ih]

theorem fragBytes_plain (w : Text) : fragBytes (w.map .plain) = encode w := by
  rw [← utf8_eq]
  induction w with
  | nil => rfl
  | cons c w ih =>
    show utf8 [c] ++ fragBytes (w.map .plain) = utf8 (c :: w)
    rw [ih, ← utf8_append]; rfl

/-- The rest of a literal of kind `q` was read up to its end `cl`. -/
def BodyL (q : Quote) (cl : Text) (t : Tz) (bytes : List Byte) (parts : List TokSpan) (res : List Byte × List TokSpan) (t' : Tz) : Prop :=
  ∃ fs r, Lay t (fragSrc fs ++ cl) t' r ∧ FragsOk q fs (cl ++ r) ∧ Eff bytes parts fs res.1 res.2

theorem BodyL.cons {q : Quote} {cl : Text} {t u t' : Tz} {fs : List Snip} {s : Text} {b b1 : List Byte} {p p1 : List TokSpan}
    {res : List Byte × List TokSpan} (h1 : Lay t (fragSrc fs) u s) (h2 : FragsOk q fs s) (h3 : Eff b p fs b1 p1)
    (h : BodyL q cl u b1 p1 res t') : BodyL q cl t b p res t' := by
  obtain ⟨gs, r, k1, k2, k3⟩ := h
  have e := h1.left k1.src
  subst e
  refine ⟨fs ++ gs, r, ?_, ?_, h3.trans k3⟩
  · rw [fragSrc_append, List.append_assoc]; exact h1.trans k1
  · refine FragsOk.append ?_ k2
    rw [← List.append_assoc]; exact h2

theorem BodyL.done {q : Quote} {cl : Text} {t t' : Tz} {r : Text} {b : List Byte} {p : List TokSpan} (h : Lay t cl t' r) :
    BodyL q cl t b p (b, p) t' := ⟨[], r, h, trivial, .refl _ _⟩

theorem textPart_of (bytes : List Byte) :
    TextPart bytes (if bytes.isEmpty then [] else [bytesToken bytes]) := by
  cases bytes with
  | nil => exact .none
  | cons b bs => exact .some nofun (bytesTok_of _)

theorem flush_lay (bytes : List Byte) (parts : List TokSpan) (stop : Nat) :
    Twp True True (flushBytes bytes parts stop) t
      (fun ps t' => t' = t ∧ ps.map TokSpan.tok = parts.map TokSpan.tok ++ (if bytes.isEmpty then [] else [bytesToken bytes]))
      (fun _ _ => False) := by
  unfold flushBytes
  refine Twp.ite (fun h => ⟨rfl, by simp [h]⟩) (fun h => ?_)
  exact Twp.bind (tw_subT fun _ => ⟨rfl, by simp [h]⟩)

/-- Literals with variables. -/
def Quote.vars : Quote → Prop
  | .single => False
  | .now _ => False
  | _ => True

/-! ### Expressions between braces -/

/-- The tokens of the expressions between braces are read as they should be. -/
def Blocks (next : T TokSpan) (fuel : Nat) (code : Text) : Prop :=
  ∀ (u : Tz) (s : Text) (acc : List TokSpan), u.code = code → u.queue = [] → u.st.state = .inScripting → u.st.stack = [.doNothing] →
    At u s → (∃ pre, (code = pre ++ c!"{" ++ s ∧ c!"$" <+: s) ∨ code = pre ++ c!"${" ++ s) →
    Twp True True (blockLoop next fuel acc) u (fun toks u' => ∃ w r xs, s = w ++ r ∧ Inner .script w (xs.map TokSpan.tok) r ∧
      toks = acc ++ xs ∧ At u' r ∧ u'.code = code ∧ u'.queue = []) (fun _ _ => False)

/-- Nothing is queued, and the expressions between braces are read as they should be. -/
structure BlkOk (next : T TokSpan) (fuel : Nat) (t : Tz) : Prop where
  queue : t.queue = []
  blocks : Blocks next fuel t.code

theorem BlkOk.moved {next : T TokSpan} {fuel : Nat} {t u : Tz} {r : Text} (h : BlkOk next fuel t) (m : Moved t u r) : BlkOk next fuel u :=
  ⟨m.queue.trans h.queue, by rw [m.code]; exact h.blocks⟩

theorem Inner.ne {g : Region} {s rest : Text} {ts : List Token} (h : Inner g s ts rest) : s ≠ [] := by
  induction h with
  | close b hb => simp
  | piece b w k hb hw h ih => simp [ih]
  | propName b w hb hw he h ih => simp [ih]
  | propArrow b hb h ih => simp [ih]
  | propNone b hb hr hn ha h ih => simp [ih]

theorem Inner.last {g : Region} {s rest : Text} {ts : List Token} (h : Inner g s ts rest) : ts.getLast? = some (.k .CurlyBracesClose) := by
  have cons : ∀ {k : Token} {ts : List Token}, ts.getLast? = some (.k .CurlyBracesClose) → (k :: ts).getLast? = some (.k .CurlyBracesClose) := by
    intro k ts h
    cases ts with
    | nil => cases h
    | cons a ts => rw [List.getLast?_cons_cons]; exact h
  induction h with
  | close b hb => rfl
  | piece b w k hb hw h ih => exact cons ih
  | propName b w hb hw he h ih => exact cons ih
  | propArrow b hb h ih => exact cons ih
  | propNone b hb hr hn ha h ih => exact ih

/-- A block is read. -/
theorem strBlock_open {next : T TokSpan} (fuel : Nat) (rd : Bool) (bytes : List Byte) (parts : List TokSpan) {s : Text}
    (h : At t ('{' :: s)) (hb : BlkOk next fuel t)
    (ho : (rd = true ∧ c!"$" <+: s) ∨ (rd = false ∧ ∃ pre, t.code = pre ++ c!"${" ++ s)) :
    Twp True True (strBlock next fuel bytes parts rd) t
      (fun res u => ∃ w r xs y qs, s = w ++ r ∧ Inner .script w (xs.map TokSpan.tok) r ∧ Lay t ('{' :: w) u r ∧
        y.tok = .k .CurlyBracesOpen ∧ res.1 = [] ∧ res.2 = qs ++ y :: xs ∧
        qs.map TokSpan.tok = parts.map TokSpan.tok ++ (if bytes.isEmpty then [] else [bytesToken bytes]) ∧ (bytes = [] → qs = parts) ∧ y.span.start = t.st.srcPos)
      (fun _ _ => False) := by
  have h0 : At t (c!"{" ++ s) := h
  unfold strBlock
  refine Twp.bind (tw_advBytes h0 rfl fun h1 => ?_)
  refine Twp.bind (Twp.of_ok (input_at h1) ?_)
  have hl := Lay.adv h0
  generalize hv : t.adv (byteLen c!"{") = v at h1 hl
  refine Twp.ite (fun _ => ?_) (fun hn => absurd ?_ hn)
  · refine Twp.bind (m := getSt) (Twp.of_ok rfl ?_)
    refine Twp.bind (m := modSt _) (Twp.of_ok rfl ?_)
    refine Twp.bind (tw_inputPos ?_)
    refine Twp.bind (tw_subT fun _ => ?_)
    have hopen : ∃ pre, (v.code = pre ++ c!"{" ++ s ∧ c!"$" <+: s) ∨ v.code = pre ++ c!"${" ++ s := by
      rw [hl.mv.code]
      rcases ho with ⟨_, ho⟩ | ⟨_, pre, ho⟩
      · obtain ⟨pre, h2, _⟩ := dropBytes_split h0
        exact ⟨pre, .inl ⟨by rw [h2]; simp, ho⟩⟩
      · exact ⟨pre, .inr ho⟩
    have := (hb.moved hl.mv).blocks ({ v with st := { v.st with state := .inScripting, stack := [.doNothing] } } : Tz) s
      [⟨.k .CurlyBracesOpen, mkSpan (v.st.srcPos - 1) v.st.srcPos⟩] rfl (hb.moved hl.mv).queue rfl rfl h1 hopen
    refine Twp.bind (this.cons ?_ (fun _ _ h => h))
    rintro toks u ⟨w, r, xs, rfl, k1, rfl, k2, k3, k4⟩
    have hlast : ((([⟨.k .CurlyBracesOpen, mkSpan (v.st.srcPos - 1) v.st.srcPos⟩] ++ xs : List TokSpan).getLast?.map TokSpan.tok) ==
        some (.k .CurlyBracesClose)) = true := by
      have h2 := k1.last
      rw [List.getLast?_map] at h2
      cases xs with
      | nil => cases h2
      | cons x xs =>
        show (((_ :: x :: xs : List TokSpan).getLast?.map TokSpan.tok) == some (.k .CurlyBracesClose)) = true
        rw [List.getLast?_cons_cons, h2]; rfl
    refine Twp.ite (fun _ => ?_) (fun hn => absurd hlast hn)
    refine Twp.bind (tw_subT fun _ => ?_)
    unfold flushBytes
    have fin : ∀ qs : List TokSpan, qs.map TokSpan.tok = parts.map TokSpan.tok ++ (if bytes.isEmpty then [] else [bytesToken bytes]) →
        (bytes = [] → qs = parts) → Twp True True (do
          modSt fun s => { s with state := v.st.state, stack := v.st.stack }
          return ([], qs ++ ([⟨.k .CurlyBracesOpen, mkSpan (v.st.srcPos - 1) v.st.srcPos⟩] ++ xs)) : T (List Byte × List TokSpan)) u
        (fun res u => ∃ w' r' xs y qs, w ++ r = w' ++ r' ∧ Inner .script w' (xs.map TokSpan.tok) r' ∧ Lay t ('{' :: w') u r' ∧
          y.tok = .k .CurlyBracesOpen ∧ res.1 = [] ∧ res.2 = qs ++ y :: xs ∧
          qs.map TokSpan.tok = parts.map TokSpan.tok ++ (if bytes.isEmpty then [] else [bytesToken bytes]) ∧ (bytes = [] → qs = parts) ∧ y.span.start = t.st.srcPos)
        (fun _ _ => False) := by
      intro qs h1 h2
      refine Twp.bind (m := modSt _) (Twp.of_ok rfl ?_)
      exact ⟨w, r, xs, _, qs, rfl, k1, ⟨by simpa using h0, k2, k3.trans hl.mv.code, hl.mv.state, hl.mv.stack, k4.trans hb.queue.symm⟩,
        rfl, rfl, rfl, h1, h2, by rw [← hv]; show t.st.srcPos + 1 - 1 = _; omega⟩
    refine Twp.bind (Twp.ite (fun hbe => ?_) (fun hbe => ?_))
    · exact fin parts (by simp [hbe]) (fun _ => rfl)
    · refine Twp.bind (tw_subT fun _ => ?_)
      exact fin _ (by simp [hbe]) (fun h => absurd (by rw [h]; rfl) hbe)
  · rcases ho with ⟨rfl, q, rfl⟩ | ⟨rfl, _⟩
    · rw [Bool.or_eq_true]; exact .inl (startsWith_append _ _)
    · simp

theorem strVariable_lay {next : T TokSpan} (fuel : Nat) (q : Quote) (hq : q.vars) (bytes : List Byte) (parts : List TokSpan) {i : Text}
    (h : At t ('$' :: i)) (hb : BlkOk next fuel t) :
    Twp True True (strVariable next fuel bytes parts) t
      (fun res u => ∃ f s, Lay t (fragSrc [f]) u s ∧ f.Ok q s ∧ Eff bytes parts [f] res.1 res.2) (fun _ _ => False) := by
  have h0 : At t (c!"$" ++ i) := h
  unfold strVariable
  refine Twp.bind (tw_advBytes h0 rfl fun h1 => ?_)
  refine Twp.bind (Twp.of_ok (input_at h1) ?_)
  refine Twp.ite (fun hs => ?_) (fun hnb => ?_)
  · obtain ⟨s, rfl⟩ := startsWith_split hs
    refine Twp.bind (tw_inputPos ?_)
    refine Twp.bind (tw_subT fun _ => ?_)
    refine Twp.bind ((flush_lay bytes parts _).cons ?_ (fun _ _ h => h))
    rintro ps t'' ⟨rfl, hps⟩
    have hopen : ∃ pre, (t.adv (byteLen c!"$")).code = pre ++ c!"${" ++ s := by
      obtain ⟨pre, h2, _⟩ := dropBytes_split h
      exact ⟨pre, by show t.code = _; rw [h2]; simp⟩
    refine Twp.bind ((strBlock_open fuel false [] ps h1 (hb.moved (.adv h0)) (.inr ⟨rfl, hopen⟩)).cons ?_ (fun _ _ h => h))
    rintro ⟨b1, p1⟩ u ⟨w, r, xs, y, qs, rfl, k1, k2, k3, rfl, rfl, k5, k6, _⟩
    obtain rfl := k6 rfl
    have hg : (qs ++ y :: xs)[qs.length]? = some y := by simp
    dsimp only
    rw [hg]
    refine Twp.ite (fun _ => ?_) (fun hne => absurd ?_ hne)
    · refine Twp.bind (tw_subT fun _ => ?_)
      refine ⟨.dollar w (xs.map TokSpan.tok), r, ?_, ?_, (if bytes.isEmpty then [] else [bytesToken bytes]) ++
        .k .DollarCurlyBracesOpen :: xs.map TokSpan.tok, ?_, ?_⟩
      · rw [fragSrc_one]
        have := (Lay.adv h0).trans k2
        simpa [Snip.src] using this
      · cases q <;> first | exact hq.elim | exact k1
      · show ((qs ++ y :: xs).set qs.length _).map TokSpan.tok = _
        rw [List.set_append_right _ _ (Nat.le_refl _), Nat.sub_self, List.set_cons_zero, List.map_append, hps]
        simp
      · intro gs ts h
        have := Parts.dollar w (xs.map TokSpan.tok) (textPart_of bytes) h
        simpa using this
    · rw [k3]; rfl
  refine Twp.bind (label_lay h1 ?_ ?_)
  · intro hno
    refine ⟨.plain '$', i, .adv h0, ?_, .char _ _ _ rfl⟩
    have : ¬ Begins '$' i := by
      rintro (⟨_, h | h⟩ | ⟨h, _⟩)
      · exact h hno
      · obtain ⟨r, rfl⟩ := h; exact hnb (by simp [startsWith])
      · cases h
    cases q <;> first | exact hq.elim | skip
    · exact ⟨nofun, nofun, this⟩
    · exact ⟨nofun, nofun, this⟩
    · exact ⟨nofun, this, nofun⟩
  · rintro w r rfl hw he hl
    dsimp only
    have hl0 : Lay t (c!"$" ++ w) ((t.adv (byteLen c!"$")).adv (byteLen w)) r := Lay.trans (.adv h0) hl
    generalize (t.adv (byteLen c!"$")).adv (byteLen w) = u at hl0 ⊢
    have hu := hl0.mv.at'
    refine Twp.bind (Twp.of_ok (input_at hu) ?_)
    refine Twp.bind (Twp.cons (E' := fun _ _ => False)
      (Q' := fun tmp u' => ∃ f s, Lay t (fragSrc [f]) u' s ∧ f.Ok q s ∧
        ∀ us, TextPart bytes us → ∀ gs ts, Parts [] gs ts → Parts bytes (f :: gs) (us ++ .variable w :: (tmp.map TokSpan.tok ++ ts))) ?_ ?_ (fun _ _ h => h))
    · refine Twp.ite (fun _ => Twp.abort fun _ => trivial) (fun hsq => ?_)
      have hvar : (∀ s, r = c!"->" ++ s → noIdentifier s) → (Snip.var w).Ok q r := by
        intro hs
        have : IsLabel w ∧ endsIdentifier r = true ∧ ¬ c!"[" <+: r ∧ ∀ s, r = c!"->" ++ s → noIdentifier s :=
          ⟨hw, he, noPrefix_of hsq, hs⟩
        cases q <;> first | exact hq.elim | exact this
      refine Twp.ite (fun ha => ?_) (fun ha => ?_)
      · obtain ⟨r2, rfl⟩ := startsWith_split ha
        refine Twp.bind (tw_inputPos ?_)
        refine Twp.bind (tw_advBytes hu rfl fun h2 => ?_)
        refine Twp.bind (label_lay h2 ?_ ?_)
        · intro hno
          refine Twp.bind (m := setPos _) (Twp.of_ok rfl ?_)
          refine ⟨.var w, c!"->" ++ r2, ?_, hvar ?_, fun us hus gs ts h => by simpa using .var w hus h⟩
          · rw [fragSrc_one]; exact hl0
          · intro s hs; exact List.append_cancel_left hs ▸ hno
        · rintro p r3 rfl hp he2 hl2
          refine ⟨.prop w p, r3, ?_, ?_, fun us hus gs ts h => .prop w p hus h⟩
          · rw [fragSrc_one]
            have := (hl0.trans (.adv hu)).trans hl2
            simpa [Snip.src] using this
          · have : IsLabel w ∧ IsLabel p ∧ endsIdentifier r3 = true := ⟨hw, hp, he2⟩
            cases q <;> first | exact hq.elim | exact this
      · refine ⟨.var w, r, ?_, hvar ?_, fun us hus gs ts h => by simpa using .var w hus h⟩
        · rw [fragSrc_one]; exact hl0
        · rintro s rfl; exact absurd (startsWith_append _ s) ha
    · rintro tmp u' ⟨f, s, k1, k2, k3⟩
      refine Twp.bind (tw_subT fun _ => ?_)
      refine Twp.bind ((flush_lay bytes parts _).cons ?_ (fun _ _ h => h))
      rintro ps t'' ⟨rfl, hps⟩
      refine ⟨f, s, k1, k2, (if bytes.isEmpty then [] else [bytesToken bytes]) ++ .variable w :: tmp.map TokSpan.tok, ?_, ?_⟩
      · simp [hps]
      · intro gs ts h
        simpa using k3 _ (textPart_of bytes) gs ts h

theorem strBlock_lay {next : T TokSpan} (fuel : Nat) (q : Quote) (hq : q.vars) (bytes : List Byte) (parts : List TokSpan) {i : Text}
    (h : At t ('{' :: i)) (hb : BlkOk next fuel t) :
    Twp True True (strBlock next fuel bytes parts true) t
      (fun res u => ∃ f s, Lay t (fragSrc [f]) u s ∧ f.Ok q s ∧ Eff bytes parts [f] res.1 res.2) (fun _ _ => False) := by
  have h0 : At t (c!"{" ++ i) := h
  by_cases hs : c!"$" <+: i
  · refine (strBlock_open fuel true bytes parts h hb (.inl ⟨rfl, hs⟩)).cons ?_ (fun _ _ h => h)
    rintro ⟨b1, p1⟩ u ⟨w, r, xs, y, qs, rfl, k1, k2, k3, rfl, rfl, k5, k6, _⟩
    refine ⟨.block w (xs.map TokSpan.tok), r, ?_, ?_, (if bytes.isEmpty then [] else [bytesToken bytes]) ++
      .k .CurlyBracesOpen :: xs.map TokSpan.tok, ?_, ?_⟩
    · rw [fragSrc_one]; exact k2
    · have hw : c!"$" <+: w := by
        obtain ⟨q, hq⟩ := hs
        cases w with
        | nil => exact absurd rfl k1.ne
        | cons c w => injection hq with hq _; exact ⟨w, by rw [← hq]; rfl⟩
      cases q <;> first | exact hq.elim | exact ⟨hw, k1⟩
    · simp [k5, k3]
    · intro gs ts h
      have := Parts.block w (xs.map TokSpan.tok) (textPart_of bytes) h
      simpa using this
  unfold strBlock
  refine Twp.bind (tw_advBytes h0 rfl fun h1 => ?_)
  refine Twp.bind (Twp.of_ok (input_at h1) ?_)
  refine Twp.ite (fun hs' => ?_) (fun hs' => ?_)
  · simp only [Bool.not_true, Bool.or_false] at hs'
    obtain ⟨r, rfl⟩ := startsWith_split hs'
    exact absurd (List.prefix_append _ _) hs
  · refine ⟨.plain '{', i, .adv h0, ?_, .char _ _ _ rfl⟩
    have : ¬ Begins '{' i := by
      rintro (⟨h, _⟩ | ⟨_, ⟨r, rfl⟩⟩)
      · cases h
      · exact hs (List.prefix_append _ _)
    cases q <;> first | exact hq.elim | skip
    · exact ⟨nofun, nofun, this⟩
    · exact ⟨nofun, nofun, this⟩
    · exact ⟨nofun, this, nofun⟩

theorem dqAdvance_lay {E : SyntaxErr → Tz → Prop} :
    Twp True True dqAdvance t (fun w t' => ∃ r, Lay t w t' r ∧ (∀ c ∈ w, isDqStop c = false) ∧
      ((∀ c, r.head? = some c → isDqStop c = true) ∨ ∃ c, r = [c])) E := by
  unfold dqAdvance
  refine Twp.bind (tw_input fun i hi => ?_)
  obtain ⟨a, b, rfl, ha, hb⟩ := span_at isDqStop i
  rw [position_of_span ha hb]
  by_cases hn : b = []
  · subst hn
    rw [if_pos rfl, List.append_nil] at *
    dsimp only
    refine Twp.bind (tw_subT fun hlen => tw_advChars hi fun _ => ⟨a.drop (a.length - 1), ?_, fun c hc => ha c (List.mem_of_mem_take hc), ?_⟩)
    rotate_left
    · exact .inr (List.length_eq_one_iff.1 (by rw [List.length_drop]; omega))
    refine .adv (r := a.drop (a.length - 1)) ?_
    rw [List.take_append_drop]; exact hi
  · rw [if_neg hn]
    dsimp only
    refine tw_advChars hi fun _ => ?_
    have : (a ++ b).take a.length = a := by simp
    rw [this]
    exact ⟨b, .adv hi, ha, .inl hb⟩

theorem run_ok {q : Quote} (hq : q.vars) {c : Char} (hc : c ≠ '\\' ∧ c ≠ '"' ∧ c ≠ '$' ∧ c ≠ '\n' ∧ c ≠ '{') (r : Text) :
    (Snip.plain c).Ok q r := by
  obtain ⟨h1, h2, h3, h4, h5⟩ := hc
  have : ¬ Begins c r := by exact fun h => h.elim (fun h => h3 h.1) (fun h => h5 h.1)
  cases q <;> first | exact hq.elim | skip
  · exact ⟨h1, h2, this⟩
  · exact ⟨h1, h2, this⟩
  · exact ⟨h1, this, fun h => absurd h h4⟩

theorem dqStop_ne {c : Char} (h : isDqStop c = false) : c ≠ '\\' ∧ c ≠ '"' ∧ c ≠ '$' ∧ c ≠ '\n' ∧ c ≠ '{' := by
  unfold isDqStop at h
  simp only [Bool.or_eq_false_iff, beq_eq_false_iff_ne] at h
  exact ⟨h.1.1.1.1, h.1.1.1.2, h.1.1.2, h.1.2, h.2⟩
end
end Pico
