import Verif.Lemmas.RtClaim
/-!
# The printed form of names, literals and variables
-/
namespace Pico

variable {dbl : Text → Text}

/-! ### Texts -/

theorem quoted_of_items : ∀ its : List SqItem, (∀ x ∈ its, x.ok = true) → Quoted (its.flatMap SqItem.src) (its.flatMap SqItem.val)
  | [], _ => .nil
  | x :: its, h => by
    have hx := h x (by simp)
    have ih := quoted_of_items its fun y hy => h y (by simp [hy])
    simp only [List.flatMap_cons]
    cases x with
    | plain c =>
      simp only [SqItem.ok, Bool.and_eq_true, bne_iff_ne] at hx
      exact .plain c ⟨hx.1, hx.2⟩ ih
    | esc c =>
      simp only [SqItem.ok, Bool.or_eq_true, beq_iff_eq] at hx
      exact .esc c hx ih
    | raw c =>
      simp only [SqItem.ok, Bool.and_eq_true, bne_iff_ne] at hx
      exact .raw c ⟨hx.1, hx.2⟩ ih

theorem strOk_iff {s : Text} (h : strOk s = true) : ¬ c!"\\\\" <:+: s := by
  induction s with
  | nil => decide
  | cons c s ih =>
    intro hi
    rw [List.infix_cons_iff] at hi
    have hs : strOk s = true := by
      unfold strOk at h
      split at h
      · cases h
      · rename_i heq; injection heq with h1 h2; subst h2; exact h
      · rename_i heq; cases heq
    rcases hi with ⟨r, hr⟩ | hi
    · rw [← hr] at h
      cases h
    · exact ih hs hi

theorem cStr_text (s : Text) : chunkText (cStr s) = some (c!"'" ++ litBody s ++ c!"'") := by
  unfold cStr litBody
  cases h : endsWithBs (replaceQuote (replaceBsQuote s)) <;> simp [h, cnd, w, chunkText]

theorem ec_str {s : Text} (h : strOk s = true) (sp : Span) : EClaim dbl (.mk (.str s) sp) := by
  intro i
  obtain ⟨its, h1, h2, h3⟩ := litBody_items s.length s (Nat.le_refl _) (strOk_iff h)
  have hq : Quoted (litBody s) s := by
    have := quoted_of_items its h3
    rwa [h1, h2] at this
  refine ⟨[.lex (.str (litBody s) s)], [.encaps s], .ofVar ?_ ⟨_, _, rfl, .inr (.inl ⟨_, _, rfl⟩)⟩ rfl rfl rfl ?_ nofun nofun⟩
  · exact ⟨(cStr_text s).trans (by simp [render, Item.text, Lexeme.text]), rfl, rfl, fun _ => rfl, fun rest _ => ⟨hq, trivial, trivial⟩, rfl⟩
  · intro us e' hd
    exact .v_str s hd

/-! ### Numbers -/

theorem digitValue_digitChar : ∀ n, n < 10 → digitValue (Nat.digitChar n) = n := by decide

theorem numberValue_append (r : Nat) (xs ys : Text) : numberValue r (xs ++ ys) = ys.foldl (fun v c => v * r + digitValue c) (numberValue r xs) := by
  unfold numberValue
  rw [List.foldl_append]

theorem digits_value (n : Nat) : numberValue 10 (Nat.toDigits 10 n) = n ∧ Nat.toDigits 10 n ≠ [] ∧
    ((Nat.toDigits 10 n).head? = some '0' → n = 0) := by
  induction n using Nat.strongRecOn with
  | _ n ih =>
    by_cases hn : n < 10
    · rw [Nat.toDigits_of_lt_base hn]
      refine ⟨?_, nofun, ?_⟩
      · simp [numberValue, digitValue_digitChar n hn]
      · have : ∀ n, n < 10 → (Nat.digitChar n = '0' → n = 0) := by decide
        intro h
        exact this n hn (by simpa using h)
    · have hq : 0 < n / 10 := by omega
      have hr : n % 10 < 10 := Nat.mod_lt _ (by omega)
      have e := Nat.toDigits_append_toDigits (b := 10) (by omega) hq hr
      rw [Nat.div_add_mod] at e
      obtain ⟨h1, h2, h3⟩ := ih (n / 10) (by omega)
      rw [← e, Nat.toDigits_of_lt_base hr]
      refine ⟨?_, by simp, ?_⟩
      · rw [numberValue_append, h1]
        simp only [List.foldl_cons, List.foldl_nil, digitValue_digitChar _ hr]
        omega
      · intro h
        have : (Nat.toDigits 10 (n / 10)).head? = some '0' := by
          cases hd : Nat.toDigits 10 (n / 10) with
          | nil => exact absurd hd h2
          | cons x xs => rw [hd] at h; exact h
        have := h3 this
        omega

theorem intText_lit (n : Nat) : IntLit (Nat.toDigits 10 n) n := by
  obtain ⟨h1, h2, h3⟩ := digits_value n
  have := IntLit.dec (Nat.toDigits 10 n) h2 (fun c hc => Nat.isDigit_of_mem_toDigits (by omega) (by omega) hc) (fun h => by
    rw [h3 h]; rfl)
  rwa [h1] at this

theorem ec_int {v : Int} (h0 : 0 ≤ v) (h1 : v < 2 ^ 63) (sp : Span) : EClaim dbl (.mk (.int v) sp) := by
  intro i
  obtain ⟨n, rfl⟩ := Int.eq_ofNat_of_zero_le h0
  have hn : n < 2 ^ 63 := by
    have : (n : Int) < ((2 ^ 63 : Nat) : Int) := h1
    exact Int.ofNat_lt.1 this
  refine ⟨[.lex (.int (Nat.toDigits 10 n) n)], [.int n], .plain ?_ ⟨_, _, rfl, .inl ⟨_, _, rfl⟩⟩ rfl (fun p => .e_int n) rfl rfl rfl⟩
  refine ⟨?_, rfl, rfl, fun _ => rfl, fun rest hr => ⟨⟨intText_lit n, hn⟩, hr.number, trivial⟩, rfl⟩
  show chunkText (w (intText (Int.ofNat n))) = _
  simp [w, chunkText, render, Item.text, Lexeme.text, intText]

theorem ec_double {l : Text} (h : doubleOk dbl l = true) (sp : Span) : EClaim dbl (.mk (.double l) sp) := by
  intro i
  unfold doubleOk at h
  simp only [Bool.and_eq_true, beq_iff_eq, Bool.not_eq_true', List.isEmpty_eq_false_iff] at h
  obtain ⟨⟨hd, hne⟩, hf⟩ := h
  have hl : l.takeWhile Char.isDigit ++ l.dropWhile Char.isDigit = l := List.takeWhile_append_dropWhile
  split at hf
  · rename_i fs heq
    rw [heq] at hl
    have hl' : l.takeWhile Char.isDigit ++ c!"." ++ fs = l := by rw [← hl]; simp [hl]
    refine ⟨[.lex (.double (l.takeWhile Char.isDigit) fs)], [.double l], .plain ?_ ⟨_, _, rfl, .inr ⟨_, _, rfl⟩⟩ rfl (fun p => .e_double l) rfl rfl rfl⟩
    refine ⟨?_, ?_, rfl, fun _ => rfl, fun rest hr => ⟨⟨hne, ?_, ?_⟩, hr.number, trivial⟩, rfl⟩
    · show chunkText (w (dbl l)) = _
      simp only [w, chunkText, render, Item.text, Lexeme.text, hd, hl', Option.map_some]
    · show [Token.double _] = _
      rw [hl']
    · intro c hc
      exact List.all_eq_true.1 List.all_takeWhile c hc
    · exact fun c hc => List.all_eq_true.1 hf c hc
  · cases hf

/-! ### Names and variables -/

theorem constOf_path {p : Path} (h : isPathK (constOf p) = true) : constOf p = .path p := by
  unfold constOf at h ⊢
  split
  · rw [if_pos ‹_›] at h; cases h
  · rw [if_neg ‹_›] at h
    split
    · rw [if_pos ‹_›] at h; cases h
    · rw [if_neg ‹_›] at h
      split
      · rw [if_pos ‹_›] at h; cases h
      · rfl

theorem leadFree_path {p : Path} (h : (!(!p.isAbsolute && isCastWord (firstSeg p))) = true) :
    leadFree (if p.isAbsolute then .other else .word (firstSeg p)) = true := by
  cases hp : p.isAbsolute with
  | true => rfl
  | false =>
    rw [hp] at h
    simpa [leadFree] using h

theorem ec_path {p : Path} (h : callable p = true) (hc : isPathK (constOf p) = true) (sp : Span) : EClaim dbl (.mk (.path p) sp) := by
  intro i
  unfold callable at h
  rw [Bool.and_eq_true] at h
  obtain ⟨is, hp, hs⟩ := piece_path (a := 0) h.1
  refine ⟨is, _, .plain hp hs (leadFree_path h.2) ?_ rfl rfl rfl⟩
  intro q
  have := DerivesX.e_name (lax := false) (p := q) (ClassName.qual p.isAbsolute (nsSegs p) p.ident)
  rw [qualPath_self, constOf_path hc] at this
  exact this

/-- The name of a class, or `static`. -/
theorem piece_class {p : Path} (h : classNameOk p = true) : ∃ is ts, Piece 0 0 (Fo false) (cPath p) is ts ∧ ClassName ts p ∧
    Starts (if p.isAbsolute then .other else .word (firstSeg p)) is := by
  unfold classNameOk at h
  rw [Bool.or_eq_true] at h
  rcases h with h | h
  · obtain ⟨is, hp, hs⟩ := piece_path (a := 0) h
    refine ⟨is, _, hp, ?_, hs⟩
    have := ClassName.qual p.isAbsolute (nsSegs p) p.ident
    rwa [qualPath_self] at this
  · unfold isStaticName at h
    rw [beq_iff_eq] at h
    subst h
    exact ⟨[.lex (.word c!"static")], [.k .Static], (piece_lex (.word c!"static") rfl rfl ⟨by decide, by decide⟩ fun _ => rfl).mono
      (fun _ hr => hr.word _), .static, ⟨_, _, rfl, rfl⟩⟩

theorem ec_const {x : Const} (h : (x == .True || x == .False || x == .Null) = true) (sp : Span) : EClaim dbl (.mk (.const x) sp) := by
  intro i
  have key : ∀ t : Text, nameOk t = true → isCastWord t = false → constOf ⟨false, none, t⟩ = .const x → x.text = t → constWord x = t →
      ∃ is ts, EC dbl i (.mk (.const x) sp) is ts := by
    intro t h1 h2 h3 h4 h5
    subst h4
    refine ⟨_, _, .plain (piece_word h1) ⟨_, _, rfl, by simp [Expr.lead, ExprK.lead, leadLex, h5]⟩
      (by simp [Expr.lead, ExprK.lead, leadFree, h5, h2]) ?_ rfl rfl rfl⟩
    intro q
    have := DerivesX.e_name (lax := false) (p := q) (ClassName.qual false [] x.text)
    rw [show qualPath false [] x.text = ⟨false, none, x.text⟩ from rfl, h3] at this
    exact this
  simp only [Bool.or_eq_true, beq_iff_eq] at h
  rcases h with (rfl | rfl) | rfl
  · exact key c!"true" (by decide) (by decide) rfl rfl rfl
  · exact key c!"false" (by decide) (by decide) rfl rfl rfl
  · exact key c!"null" (by decide) (by decide) rfl rfl rfl

theorem ec_var {n : Text} (h : isIdentifier n = true) (sp : Span) : EClaim dbl (.mk (.var (.name n)) sp) := by
  intro i
  refine ⟨_, _, .ofVar (piece_var h) ⟨_, _, rfl, .inl ⟨_, rfl⟩⟩ rfl rfl rfl ?_ ?_ ?_⟩
  · intro us e' hd
    exact .v_name n hd
  · intro _ us e' hd
    exact .c_var n hd
  · intro _
    exact .c_var n (.a_nil _ _)

end Pico
