import Verif.Lemmas.GramMain
import Verif.Spec.Program
import Verif.Props.Parser
import Verif.Props.Modifiers
import Verif.Lemmas.PrintOut
import Verif.Spec.Lexing
/-!
# What the parser makes of the phrases of the grammar (C19, C23, C24, C25, C26, C32, C33)
-/
namespace Pico

theorem visible_strip (toks : List TokSpan) : visible toks = (stripTokens toks).map TokSpan.tok := by
  unfold visible
  induction toks with
  | nil => rfl
  | cons t ts ih =>
    have h : (stripToken t).map TokSpan.tok = seenAs t.tok := by
      obtain ⟨t, sp⟩ := t
      unfold stripToken seenAs
      cases t with
      | k k => cases k <;> rfl
      | _ => rfl
    rw [List.flatMap_cons, ih, stripTokens, List.map_append, h]

theorem Sourced.placed {toks : List TokSpan} (h : Sourced toks) : Placed (stripTokens toks) := by
  induction toks with
  | nil => exact h
  | cons t ts ih =>
    intro y hy hw
    rcases List.mem_append.1 hy with hy | hy
    · unfold stripToken at hy
      split at hy
      · cases hy
      · cases hy
      · cases hy
      · simp only [List.mem_cons, List.not_mem_nil, or_false] at hy
        rcases hy with rfl | rfl | rfl <;> cases hw
      · simp only [List.mem_cons, List.not_mem_nil, or_false] at hy
        rcases hy with rfl
        cases hw
      · rw [List.mem_singleton] at hy
        exact h y (by simp [hy]) hw
    · exact ih (fun x hx => h x (List.mem_cons_of_mem _ hx)) y hy hw

/-- Every program of the grammar is parsed to the tree the grammar gives it. -/
theorem program_parses (m : LineMap) (toks : List TokSpan) (ss : List Stmt) (hP : Sourced toks)
    (hne : visible toks ≠ []) (h : Derives .tops (visible toks) ss) : ParsesTo m toks ss := by
  rw [visible_strip] at hne h
  have hne' : stripTokens toks ≠ [] := fun h => hne (by simp [h])
  obtain ⟨ss', h1, h2⟩ := top_parses hP.placed hne' h (Nat.le_refl _)
  refine ⟨ss', h1, fun n hn => ?_⟩
  have hl := stripTokens_length toks
  replace hn : 2 * (stripTokens toks).length + 2 ≤ n := by omega
  have h3 : parseTokensN (2 * (stripTokens toks).length + 2) m toks = .ok ss' := by
    unfold parseTokensN
    simp only [h2]
  rw [C09_fuel m toks _ n hn (by simp [h3]), h3]

/-- A program of one statement. -/
theorem stmt_parses {m : LineMap} {toks : List TokSpan} {o : Bool} {s : Stmt} (hP : Sourced toks)
    (h : Derives (.stmt o) (visible toks) s) (hne : visible toks ≠ []) : ParsesTo m toks [s] := by
  refine program_parses m toks [s] hP hne ?_
  have := DerivesX.tops_cons (.t_stmt h) .tops_nil
  simpa using this

/-- The grammar is unambiguous: a non-empty sequence of tokens has at most one meaning. -/
theorem grammar_unambiguous (ts : List Token) (hne : ts ≠ []) (ss ss' : List Stmt) (h : Derives .tops ts ss)
    (h' : Derives .tops ts ss') : ss = ss' := by
  let toks : List TokSpan := ts.map fun t => ⟨t, mkSpan 1 2⟩
  have hm : toks.map TokSpan.tok = ts := by simp [toks, Function.comp_def]
  have hP : Placed toks := by
    intro t ht _
    obtain ⟨x, _, rfl⟩ := List.mem_map.1 ht
    exact Nat.le_refl _
  have hne' : toks ≠ [] := by simpa [toks] using hne
  obtain ⟨a, ha1, ha2⟩ := top_parses hP hne' (hm ▸ h) (Nat.le_refl _)
  obtain ⟨b, hb1, hb2⟩ := top_parses hP hne' (hm ▸ h') (Nat.le_refl _)
  rw [ha2] at hb2
  cases hb2
  rw [← ha1, ← hb1]

/-! ## C19 -/

theorem weaken_level {p q s : Nat} {ts : List Token} {e : Expr} (h : Derives (.expr p s) ts e) (hq : q ≤ p) :
    Derives (.expr q s) ts e := by
  cases h with
  | e_var h => exact .e_var h
  | e_postInc h => exact .e_postInc h
  | e_postDec h => exact .e_postDec h
  | e_int v => exact .e_int v
  | e_double l => exact .e_double l
  | e_magic h => exact .e_magic h
  | e_name h => exact .e_name h
  | e_classConst hc hm => exact .e_classConst hc hm
  | e_emptyString => exact .e_emptyString
  | e_string h hp => exact .e_string h hp
  | e_heredoc h hp => exact .e_heredoc h hp
  | e_new h => exact .e_new h
  | e_newArgs h h' => exact .e_newArgs h h'
  | e_exit => exact .e_exit
  | e_exitValue h => exact .e_exitValue h
  | e_isset h => exact .e_isset h
  | e_empty h => exact .e_empty h
  | e_closure h => exact .e_closure h
  | e_clone h => exact .e_clone h
  | e_yield => exact .e_yield
  | e_yieldValue h => exact .e_yieldValue h
  | e_include hk h => exact .e_include hk h
  | e_assign h h' => exact .e_assign h h'
  | e_assignRef h h' => exact .e_assignRef h h'
  | e_compound hk h h' => exact .e_compound hk h h'
  | e_list h h' => exact .e_list h h'
  | e_listRef h h' => exact .e_listRef h h'
  | e_cast hk h => exact .e_cast hk h
  | e_prefix hk h => exact .e_prefix hk h
  | e_left hk hl hp h hs h' => exact .e_left hk hl (Nat.lt_of_le_of_lt hq hp) h hs h'
  | e_pow hp h hs h' => exact .e_pow (Nat.lt_of_le_of_lt hq hp) h hs h'
  | e_ternary hp h hs h' h'' => exact .e_ternary (Nat.lt_of_le_of_lt hq hp) h hs h' h''
  | e_elvis hp h hs h'' => exact .e_elvis (Nat.lt_of_le_of_lt hq hp) h hs h''
  | e_instance hp h hs hi h' => exact .e_instance (Nat.lt_of_le_of_lt hq hp) h hs hi h'
  | _ => contradiction

theorem derives_congr {p s s' : Nat} {ts ts' : List Token} {e e' : Expr} (h : Derives (.expr p s) ts e)
    (hs : s = s') (ht : ts = ts') (he : e = e') : Derives (.expr p s') ts' e' := by
  subst hs ht he
  exact h

theorem leftOp_level (k : Kw) (h : (leftOp k).isSome = true) :
    ∃ lv, infixLevel k = some lv ∧ 1 ≤ lv ∧ lv ≤ 14 ∧ k ≠ .Pow := by
  cases k <;> first | (exact absurd h (by decide)) | exact ⟨_, rfl, by decide, by decide, by decide⟩

theorem OpTree.toks_node (l : OpTree) (o : Infix) (r : OpTree) :
    (OpTree.node l o r).seq.toks = l.seq.toks ++ (o.toks ++ r.seq.toks) := by
  simp [OpTree.seq, OpSeq.toks, List.append_assoc]

theorem OpTree.ok_node {l : OpTree} {o : Infix} {r : OpTree} (h : (OpTree.node l o r).seq.ok) :
    l.seq.ok ∧ o.ok ∧ r.seq.ok := by
  obtain ⟨h1, h2⟩ := h
  refine ⟨⟨h1, fun y hy => h2 y (by simp [OpTree.seq, hy])⟩, ?_, ?_, ?_⟩
  · exact (h2 (o, r.seq.first) (by simp [OpTree.seq])).1
  · exact (h2 (o, r.seq.first) (by simp [OpTree.seq])).2
  · exact fun y hy => h2 y (by simp [OpTree.seq, hy])

/-- The level of the operator at the top. -/
def OpTree.level : OpTree → Nat
  | .leaf _ => 16
  | .node _ o _ => o.level

/-- The tightest operator that may follow. -/
def OpTree.follow : OpTree → Nat
  | .leaf _ => prefixLevel
  | .node _ o _ => if o.leftAssoc then o.level else o.level - 1

theorem Infix.level_pos {o : Infix} (h : o.ok) : 1 ≤ o.level ∧ o.level ≤ 15 := by
  cases o with
  | bin k =>
    rcases h with h | rfl
    · obtain ⟨lv, h1, h2, h3, _⟩ := leftOp_level k h
      simp [Infix.level, h1, h2]; omega
    · simp [Infix.level, infixLevel]
  | cond m => simp [Infix.level]
  | elvis => simp [Infix.level]

theorem Infix.assoc_level {o o' : Infix} (h : o.ok) (h' : o'.ok) (he : o.level = o'.level) :
    o.leftAssoc = o'.leftAssoc := by
  have key : ∀ o : Infix, o.ok → o.leftAssoc = decide (o.level < 15) := by
    intro o h
    cases o with
    | bin k =>
      rcases h with h | rfl
      · obtain ⟨lv, h1, h2, h3, h4⟩ := leftOp_level k h
        have : (Infix.bin k).leftAssoc = true := by
          cases k <;> first | rfl | exact absurd rfl h4
        rw [this]
        simp [Infix.level, h1]; omega
      · rfl
    | cond m => rfl
    | elvis => rfl
  rw [key o h, key o' h', he]

theorem optree_derives (t : OpTree) (hok : t.seq.ok) (ht : t.byTable) (p : Nat) (hp : p < t.level) :
    Derives (.expr p t.follow) t.seq.toks t.tree := by
  induction t generalizing p with
  | leaf x =>
    have : Derives (.expr 15 prefixLevel) x.toks x.tree := hok.1
    have := weaken_level this (q := p) (by simp [OpTree.level] at hp; omega)
    simpa [OpTree.seq, OpSeq.toks, OpTree.follow, OpTree.tree] using this
  | node l o r ihl ihr =>
    obtain ⟨hl, ho, hr⟩ := OpTree.ok_node hok
    obtain ⟨tl, tr, cl, cr⟩ := ht
    rw [OpTree.toks_node]
    have hpos := Infix.level_pos ho
    have hL : ∀ q, q < l.level → Derives (.expr q l.follow) l.seq.toks l.tree := fun q => ihl hl tl q
    have hR : ∀ q, q < r.level → Derives (.expr q r.follow) r.seq.toks r.tree := fun q => ihr hr tr q
    -- levels of the operands
    have hlv : (o.leftAssoc = true → o.level ≤ l.level ∧ o.level ≤ l.follow) ∧
        (o.leftAssoc = false → o.level < l.level ∧ o.level ≤ l.follow) := by
      cases l with
      | leaf x => simp [OpTree.level, OpTree.follow, prefixLevel]; omega
      | node l1 ol l2 =>
        have hol := (OpTree.ok_node hl).2.1
        have := cl ol rfl
        have ha := Infix.assoc_level ho hol
        simp only [OpTree.level, OpTree.follow]
        constructor
        · intro h
          split <;> rename_i h1
          · omega
          · have : o.level ≠ ol.level := by
              intro e; rw [ha e] at h; exact h1 h
            omega
        · intro h
          split <;> rename_i h1
          · have : o.level ≠ ol.level := by
              intro e; rw [ha e, h1] at h; cases h
            omega
          · rw [h] at this
            simp at this
            omega
    have hrv : (o.leftAssoc = true → o.level < r.level ∧ o.level ≤ r.follow) ∧
        (o.leftAssoc = false → o.level ≤ r.level ∧ o.level - 1 ≤ r.follow) := by
      cases r with
      | leaf x => simp [OpTree.level, OpTree.follow, prefixLevel]; omega
      | node r1 or r2 =>
        have hor := (OpTree.ok_node hr).2.1
        have := cr or rfl
        have ha := Infix.assoc_level ho hor
        simp only [OpTree.level, OpTree.follow]
        constructor
        · intro h
          rw [h] at this
          simp at this
          split <;> omega
        · intro h
          split <;> omega
    cases o with
    | bin k =>
      rcases ho with hk | rfl
      · obtain ⟨lv, h1, h2, h3, h4⟩ := leftOp_level k hk
        obtain ⟨op, hop⟩ := Option.isSome_iff_exists.1 hk
        have hlev : (Infix.bin k).level = lv := by simp [Infix.level, h1]
        have hla : (Infix.bin k).leftAssoc = true := by
          cases k <;> first | rfl | exact absurd rfl h4
        have hap : (Infix.bin k).apply l.tree r.tree = bare (.binary op l.tree r.tree) := by
          revert hop
          cases k <;> first | (intro hop; simp [Infix.apply, hop]; done) | exact absurd rfl h4
        obtain ⟨a1, a2⟩ := hlv.1 hla
        obtain ⟨b1, b2⟩ := hrv.1 hla
        rw [hlev] at a1 a2 b1 b2
        have := DerivesX.e_left (p := p) hop h1 (by simpa [OpTree.level, hlev] using hp)
          (hL (lv - 1) (by omega)) a2 (hR lv b1)
        rw [Nat.min_eq_left b2] at this
        exact derives_congr this (by simp [OpTree.follow, hla, hlev]) (by simp [Infix.toks])
          (by simp [OpTree.tree, hap])
      · obtain ⟨a1, a2⟩ := hlv.2 rfl
        obtain ⟨b1, b2⟩ := hrv.2 rfl
        have hlev : (Infix.bin .Pow).level = 15 := rfl
        rw [hlev] at a1 a2 b1 b2
        have := DerivesX.e_pow (p := p) (by simpa [OpTree.level, hlev] using hp) (hL 15 a1) a2 (hR 14 (by omega))
        rw [Nat.min_eq_left b2] at this
        exact derives_congr this rfl (by simp [Infix.toks]) rfl
    | cond m =>
      obtain ⟨sm, hm⟩ := ho
      obtain ⟨a1, a2⟩ := hlv.1 rfl
      obtain ⟨b1, b2⟩ := hrv.1 rfl
      simp only [Infix.level] at a1 a2 b1 b2
      have := DerivesX.e_ternary (p := p) (by simpa [OpTree.level, Infix.level] using hp)
        (hL 3 (by omega)) a2 hm (hR 4 b1)
      rw [Nat.min_eq_left b2] at this
      simpa [OpTree.follow, OpTree.tree, Infix.apply, Infix.toks, Infix.leftAssoc, Infix.level] using this
    | elvis =>
      obtain ⟨a1, a2⟩ := hlv.1 rfl
      obtain ⟨b1, b2⟩ := hrv.1 rfl
      simp only [Infix.level] at a1 a2 b1 b2
      have := DerivesX.e_elvis (p := p) (by simpa [OpTree.level, Infix.level] using hp)
        (hL 3 (by omega)) a2 (hR 4 b1)
      rw [Nat.min_eq_left b2] at this
      simpa [OpTree.follow, OpTree.tree, Infix.apply, Infix.toks, Infix.leftAssoc, Infix.level] using this

theorem level_pos (t : OpTree) (hok : t.seq.ok) : 0 < t.level := by
  cases t with
  | leaf x => simp [OpTree.level]
  | node l o r => exact (Infix.level_pos (OpTree.ok_node hok).2.1).1

/-- Append an operator and an operand to a grouped sequence. -/
def OpTree.push (o : Infix) (x : Operand) : OpTree → OpTree
  | .leaf y => .node (.leaf y) o (.leaf x)
  | .node l o' r =>
    if o.level < o'.level ∨ o.level = o'.level ∧ o.leftAssoc = true then .node (.node l o' r) o (.leaf x)
    else .node l o' (r.push o x)

theorem push_seq (o : Infix) (x : Operand) (t : OpTree) :
    (t.push o x).seq = ⟨t.seq.first, t.seq.rest ++ [(o, x)]⟩ := by
  induction t with
  | leaf y => rfl
  | node l o' r ihl ihr =>
    unfold OpTree.push
    split
    · simp [OpTree.seq]
    · simp [OpTree.seq, ihr]

theorem push_top (o : Infix) (x : Operand) (t : OpTree) :
    (t.push o x).top = some o ∨ (t.push o x).top = t.top := by
  cases t with
  | leaf y => exact .inl rfl
  | node l o' r =>
    unfold OpTree.push
    split
    · exact .inl rfl
    · exact .inr rfl

theorem push_byTable (o : Infix) (x : Operand) (t : OpTree) (ho : o.ok) (hok : t.seq.ok) (h : t.byTable) :
    (t.push o x).byTable := by
  induction t with
  | leaf y => simp [OpTree.push, OpTree.byTable, OpTree.top]
  | node l o' r ihl ihr =>
    obtain ⟨h1, h2, h3, h4⟩ := h
    obtain ⟨_, k2, k3⟩ := OpTree.ok_node hok
    have ha := Infix.assoc_level ho k2
    unfold OpTree.push
    split
    · rename_i hc
      refine ⟨⟨h1, h2, h3, h4⟩, trivial, ?_, ?_⟩
      · intro ol e
        cases e
        exact hc
      · intro ol e
        cases e
    · rename_i hc
      refine ⟨h1, ihr k3 h2, h3, ?_⟩
      intro or e
      rcases push_top o x r with h | h
      · rw [h] at e
        cases e
        by_cases he : o.level = o'.level
        · right
          refine ⟨he.symm, ?_⟩
          rw [← ha he]
          cases hl : o.leftAssoc with
          | false => rfl
          | true => exact absurd (.inr ⟨he, hl⟩) hc
        · left
          have : ¬ o.level < o'.level := fun h => hc (.inl h)
          omega
      · exact h4 or (h ▸ e)

/-- **C19**, existence of the prescribed tree: every sequence of operands and operators can be grouped by the
table. -/
theorem C19_exists (q : OpSeq) (hq : q.ok) : ∃ t : OpTree, t.seq = q ∧ t.byTable := by
  obtain ⟨x, ys⟩ := q
  have key : ∀ n (ys : List (Infix × Operand)), ys.length = n → OpSeq.ok ⟨x, ys⟩ →
      ∃ t : OpTree, t.seq = ⟨x, ys⟩ ∧ t.byTable := by
    intro n
    induction n with
    | zero =>
      intro ys hl _
      cases List.eq_nil_of_length_eq_zero hl
      exact ⟨.leaf x, rfl, trivial⟩
    | succ n ih =>
      intro ys hl hok
      rcases List.eq_nil_or_concat ys with rfl | ⟨zs, y, rfl⟩
      · cases hl
      · simp only [List.concat_eq_append] at hl hok ⊢
        have hok' : OpSeq.ok ⟨x, zs⟩ := ⟨hok.1, fun y hy => hok.2 y (by simp [hy])⟩
        obtain ⟨t, ht, hb⟩ := ih zs (by simpa using hl) hok'
        refine ⟨t.push y.1 y.2, ?_, push_byTable _ _ _ (hok.2 y (by simp)).1 (ht ▸ hok') hb⟩
        rw [push_seq, ht]
  exact key _ ys rfl hq

theorem byTable_ops (t : OpTree) (hok : t.seq.ok) (h : t.byTable) (o : Infix) (ho : t.top = some o) :
    ∀ y ∈ t.seq.rest, o.level ≤ y.1.level := by
  induction t generalizing o with
  | leaf x => cases ho
  | node l o' r ihl ihr =>
    cases ho
    obtain ⟨h1, h2, h3, h4⟩ := h
    obtain ⟨k1, k2, k3⟩ := OpTree.ok_node hok
    have sub : ∀ (t : OpTree), (∀ o, t.top = some o → ∀ y ∈ t.seq.rest, o.level ≤ y.1.level) →
        (∀ o, t.top = some o → o'.level ≤ o.level) → ∀ y ∈ t.seq.rest, o'.level ≤ y.1.level := by
      intro t ht hle y hy
      cases t with
      | leaf x => cases hy
      | node a b c => exact Nat.le_trans (hle b rfl) (ht b rfl y hy)
    intro y hy
    simp only [OpTree.seq, List.mem_append, List.mem_cons] at hy
    rcases hy with hy | rfl | hy
    · exact sub l (ihl k1 h1) (fun o e => by have := h3 o e; omega) y hy
    · exact Nat.le_refl _
    · exact sub r (ihr k3 h2) (fun o e => by have := h4 o e; omega) y hy

/-- Operators inside the left operand bind tighter, or as tight as a left associative operator. -/
theorem byTable_left {l : OpTree} {o : Infix} {r : OpTree} (hok : (OpTree.node l o r).seq.ok)
    (h : (OpTree.node l o r).byTable) :
    ∀ y ∈ l.seq.rest, o.level < y.1.level ∨ o.level = y.1.level ∧ o.leftAssoc = true := by
  obtain ⟨h1, h2, h3, h4⟩ := h
  obtain ⟨k1, k2, k3⟩ := OpTree.ok_node hok
  intro y hy
  cases l with
  | leaf x => cases hy
  | node a b c =>
    have := byTable_ops _ k1 h1 b rfl y hy
    rcases h3 b rfl with h | ⟨h, h'⟩
    · left; omega
    · by_cases he : o.level = y.1.level
      · exact .inr ⟨he, h'⟩
      · left; omega

theorem byTable_right {l : OpTree} {o : Infix} {r : OpTree} (hok : (OpTree.node l o r).seq.ok)
    (h : (OpTree.node l o r).byTable) :
    ∀ y ∈ r.seq.rest, o.level < y.1.level ∨ o.level = y.1.level ∧ o.leftAssoc = false := by
  obtain ⟨h1, h2, h3, h4⟩ := h
  obtain ⟨k1, k2, k3⟩ := OpTree.ok_node hok
  intro y hy
  cases r with
  | leaf x => cases hy
  | node a b c =>
    have := byTable_ops _ k3 h2 b rfl y hy
    rcases h4 b rfl with h | ⟨h, h'⟩
    · left; omega
    · by_cases he : o.level = y.1.level
      · exact .inr ⟨he, h'⟩
      · left; omega

/-- **C19**, the prescribed tree is unique. -/
theorem C19_unique (t t' : OpTree) (hok : t.seq.ok) (hs : t.seq = t'.seq) (h : t.byTable) (h' : t'.byTable) :
    t = t' := by
  induction t generalizing t' with
  | leaf x =>
    cases t' with
    | leaf y => simp only [OpTree.seq, OpSeq.mk.injEq] at hs; rw [hs.1]
    | node l o r => simp [OpTree.seq] at hs
  | node l o r ihl ihr =>
    cases t' with
    | leaf y => simp [OpTree.seq] at hs
    | node l' o' r' =>
      have hok' : (OpTree.node l' o' r').seq.ok := hs ▸ hok
      have bl := byTable_left hok h
      have br := byTable_right hok h
      have bl' := byTable_left hok' h'
      have br' := byTable_right hok' h'
      obtain ⟨k1, k2, k3⟩ := OpTree.ok_node hok
      obtain ⟨k1', k2', k3'⟩ := OpTree.ok_node hok'
      simp only [OpTree.seq, OpSeq.mk.injEq] at hs
      obtain ⟨hf, hr⟩ := hs
      -- the two roots stand at the same place
      have clash : ∀ (o o' : Infix), o.ok → o'.ok →
          (o.level < o'.level ∨ o.level = o'.level ∧ o.leftAssoc = false) →
          (o'.level < o.level ∨ o'.level = o.level ∧ o'.leftAssoc = true) → False := by
        intro o o' a b h1 h2
        have ha := Infix.assoc_level a b
        rcases h1 with h1 | ⟨h1, h3⟩
        · rcases h2 with h2 | ⟨h2, _⟩ <;> omega
        · rcases h2 with h2 | ⟨h2, h4⟩
          · omega
          · rw [ha h1, h4] at h3; cases h3
      rcases List.append_eq_append_iff.1 hr with ⟨as, e1, e2⟩ | ⟨as, e1, e2⟩
      · cases as with
        | nil =>
          simp only [List.append_nil, List.nil_append, List.cons.injEq, Prod.mk.injEq] at e1 e2
          obtain ⟨⟨e3, e4⟩, e5⟩ := e2
          have hl : l = l' := ihl l' k1 (by
            cases hl : l.seq; cases hl' : l'.seq; simp_all) h.1 h'.1
          have hr : r = r' := ihr r' k3 (by
            cases hl : r.seq; cases hl' : r'.seq; simp_all) h.2.1 h'.2.1
          rw [hl, hr, e3]
        | cons y as =>
          exfalso
          simp only [List.cons_append, List.cons.injEq] at e2
          have h1 := bl' y (by rw [e1]; simp)
          have h2 := br (o', r'.seq.first) (by rw [e2.2]; simp)
          rw [← e2.1] at h1
          exact clash o o' k2 k2' h2 h1
      · cases as with
        | nil =>
          simp only [List.append_nil, List.nil_append, List.cons.injEq, Prod.mk.injEq] at e1 e2
          obtain ⟨⟨e3, e4⟩, e5⟩ := e2
          have hl : l = l' := ihl l' k1 (by
            cases hl : l.seq; cases hl' : l'.seq; simp_all) h.1 h'.1
          have hr : r = r' := ihr r' k3 (by
            cases hl : r.seq; cases hl' : r'.seq; simp_all) h.2.1 h'.2.1
          rw [hl, hr, e3]
        | cons y as =>
          exfalso
          simp only [List.cons_append, List.cons.injEq] at e2
          have h1 := bl y (by rw [e1]; simp)
          have h2 := br' (o, r.seq.first) (by rw [e2.2]; simp)
          rw [← e2.1] at h1
          exact clash o' o k2' k2 h2 h1

/-- **C19.** A statement `return x₀ o₁ x₁ ... oₙ xₙ;` is parsed to the grouping of the operands prescribed by
the table, for any number of operators. -/
theorem C19_precedence (m : LineMap) (toks : List TokSpan) (t : OpTree) (hP : Sourced toks) (hok : t.seq.ok)
    (ht : t.byTable) (hv : visible toks = .k .Return :: (t.seq.toks ++ [.k .SemiColon])) :
    ParsesTo m toks [bareS (.ret (some t.tree))] := by
  refine stmt_parses (o := false) hP ?_ (by simp [hv])
  rw [hv]
  exact .s_return (.o_some (optree_derives t hok ht 0 (level_pos t hok)))

/-- **C19**, as one statement: there is exactly one grouping of the sequence by the table, and the parser
returns it. -/
theorem C19_sequence (m : LineMap) (toks : List TokSpan) (q : OpSeq) (hP : Sourced toks) (hok : q.ok)
    (hv : visible toks = .k .Return :: (q.toks ++ [.k .SemiColon])) :
    ∃ t : OpTree, t.seq = q ∧ t.byTable ∧ (∀ t' : OpTree, t'.seq = q → t'.byTable → t' = t) ∧
      ParsesTo m toks [bareS (.ret (some t.tree))] := by
  obtain ⟨t, ht, hb⟩ := C19_exists q hok
  subst ht
  exact ⟨t, rfl, hb, fun t' e h => C19_unique t' t (e ▸ hok) e h hb, C19_precedence m toks t hP hok hb hv⟩

/-- **C19**, parentheses override: a grouped sequence in parentheses is one operand. -/
theorem C19_parentheses (t : OpTree) (hok : t.seq.ok) (ht : t.byTable) :
    Operand.ok ⟨.k .ParenthesesOpen :: (t.seq.toks ++ [.k .ParenthesesClose]), t.tree⟩ := by
  have := DerivesX.v_paren (optree_derives t hok ht 0 (level_pos t hok)) (.a_nil false _)
  exact .e_var this

/-- A prefix operator or cast in front of an operand without infix operators is an operand: prefix operators
bind tighter than every infix operator. -/
theorem C19_prefix (k : Kw) (op : UnaryOp) (x : Operand) (hk : prefixOf k = some op)
    (hx : Derives (.expr prefixLevel prefixLevel) x.toks x.tree) :
    Operand.ok ⟨.k k :: x.toks, bare (.unary op x.tree)⟩ := .e_prefix hk hx

/-- An operand that is a variable. -/
def varOperand (n : Text) : Operand := ⟨[.variable n], bare (.var (.name n))⟩

theorem varOperand_ok (n : Text) : (varOperand n).ok := .e_var (.v_name n (.a_nil false _))

/-- Tokens at some position behind the open tag. -/
def behindTag (ts : List Token) : List TokSpan := ts.map fun t => ⟨t, mkSpan 6 7⟩

/-- The hypotheses of `C19_precedence` and `C19_sequence` hold for
`return $a - $b - $c * $d ** $e ** $f and $g ? $h : $i;`, and the grouping is
`(($a - $b) - ($c * ($d ** ($e ** $f)))) and ($g ? $h : $i)`. -/
example :
    let v := fun (c : Char) => varOperand [c]
    let l := fun (c : Char) => OpTree.leaf (v c)
    let t := OpTree.node
      (.node (.node (l 'a') (.bin .Minus) (l 'b')) (.bin .Minus)
        (.node (l 'c') (.bin .Mul) (.node (l 'd') (.bin .Pow) (.node (l 'e') (.bin .Pow) (l 'f')))))
      (.bin .LogicalAnd) (.node (l 'g') (.cond (v 'h')) (l 'i'))
    let toks := behindTag (.k .Return :: (t.seq.toks ++ [.k .SemiColon]))
    t.seq.ok ∧ t.byTable ∧ Sourced toks ∧ visible toks = .k .Return :: (t.seq.toks ++ [.k .SemiColon]) ∧
      toks.length = 19 := by
  refine ⟨⟨varOperand_ok _, ?_⟩, ?_, ?_, rfl, rfl⟩
  · intro y hy
    simp only [OpTree.seq, List.nil_append, List.cons_append, List.mem_cons, List.not_mem_nil, or_false] at hy
    rcases hy with rfl | rfl | rfl | rfl | rfl | rfl | rfl <;>
      first
        | exact ⟨.inl rfl, varOperand_ok _⟩
        | exact ⟨.inr rfl, varOperand_ok _⟩
        | exact ⟨⟨_, .e_var (.v_name _ (.a_nil false _))⟩, varOperand_ok _⟩
  · simp [OpTree.byTable, OpTree.top, Infix.level, infixLevel, Infix.leftAssoc]
  · unfold Sourced Placed
    decide

/-! ## C24 -/

theorem chain_derives (sep : Bool) (b : Branch) (bs : List (Bool × Branch)) (e : Option ElseBranch)
    (h : chainOk b bs e) :
    Derives .ifTail (chainToks ((sep, b) :: bs) e) (chainTree ((sep, b) :: bs) e) ∧
      Derives (.stmt true) (.k .If :: (b.toks ++ chainToks bs e))
        (bareS (.ite b.cond b.body (chainTree bs e))) := by
  induction bs generalizing sep b with
  | nil =>
    have tail : Derives .ifTail (chainToks [] e) (chainTree [] e) ∧ b.ok ∧ (e = none ∨ b.open_ = false) := by
      cases e with
      | none => exact ⟨.if_none, h, .inl rfl⟩
      | some e => exact ⟨.if_else h.2.2, h.1, .inr h.2.1⟩
    obtain ⟨ht, ⟨⟨s, hc⟩, hb⟩, ho⟩ := tail
    have ho' : chainToks [] e = [] ∨ b.open_ = false := by
      rcases ho with rfl | h
      · exact .inl rfl
      · exact .inr h
    have hst : Derives (.stmt true) (.k .If :: (b.toks ++ chainToks [] e))
        (bareS (.ite b.cond b.body (chainTree [] e))) := by
      have := DerivesX.s_if hc hb ht ho'
      simpa [Branch.toks] using this
    refine ⟨?_, hst⟩
    cases sep with
    | true =>
      have := DerivesX.if_else (DerivesX.b_stmt hst rfl)
      simpa [chainToks, chainTree] using this
    | false =>
      have := DerivesX.if_elseif hc hb ht ho'
      simpa [chainToks, chainTree, Branch.toks] using this
  | cons x bs ih =>
    obtain ⟨sep', b'⟩ := x
    obtain ⟨⟨⟨s, hc⟩, hb⟩, ho, hrest⟩ := h
    obtain ⟨ht, _⟩ := ih sep' b' hrest
    have hst : Derives (.stmt true) (.k .If :: (b.toks ++ chainToks ((sep', b') :: bs) e))
        (bareS (.ite b.cond b.body (chainTree ((sep', b') :: bs) e))) := by
      have := DerivesX.s_if hc hb ht (.inr ho)
      simpa [Branch.toks] using this
    refine ⟨?_, hst⟩
    cases sep with
    | true =>
      have := DerivesX.if_else (DerivesX.b_stmt hst rfl)
      rw [chainToks, chainTree]
      simpa using this
    | false =>
      have := DerivesX.if_elseif hc hb ht (.inr ho)
      rw [chainToks, chainTree]
      simpa [Branch.toks] using this

/-- **C24.** A chain of any length, with `elseif` or `else if` at each link and with or without a final `else`,
is parsed to nested conditionals: each condition guards its own body and the rest of the chain is its else
branch. -/
theorem C24_chain (m : LineMap) (toks : List TokSpan) (b : Branch) (bs : List (Bool × Branch))
    (e : Option ElseBranch) (hP : Sourced toks) (h : chainOk b bs e)
    (hv : visible toks = .k .If :: (b.toks ++ chainToks bs e)) :
    ParsesTo m toks [bareS (.ite b.cond b.body (chainTree bs e))] := by
  refine stmt_parses (o := true) hP ?_ (by simp [hv])
  rw [hv]
  exact (chain_derives false b bs e h).2

/-- The hypotheses of `C24_chain` hold for `if ($a) return; elseif ($b) return; else if ($c) { return; } else { }`. -/
example :
    let br := fun (c : Char) (blk : Bool) => (⟨[.variable [c]], bare (.var (.name [c])),
      if blk then [.k .CurlyBracesOpen, .k .Return, .k .SemiColon, .k .CurlyBracesClose]
      else [.k .Return, .k .SemiColon], [bareS (.ret none)], false⟩ : Branch)
    let e : Option ElseBranch := some ⟨[.k .CurlyBracesOpen, .k .CurlyBracesClose], [], false⟩
    let bs := [(false, br 'b' false), (true, br 'c' true)]
    let toks := behindTag (.k .If :: ((br 'a' false).toks ++ chainToks bs e))
    chainOk (br 'a' false) bs e ∧ Sourced toks ∧ visible toks = .k .If :: ((br 'a' false).toks ++ chainToks bs e) ∧
      toks.length = 24 := by
  have hv : ∀ c : Char, ∃ s, Derives (.expr 0 s) [.variable [c]] (bare (.var (.name [c]))) :=
    fun c => ⟨_, .e_var (.v_name _ (.a_nil false _))⟩
  have hr : Derives (.stmt false) [.k .Return, .k .SemiColon] (bareS (.ret none)) := .s_return .o_none
  refine ⟨⟨⟨hv 'a', .b_stmt hr rfl⟩, rfl, ⟨hv 'b', .b_stmt hr rfl⟩, rfl, ⟨hv 'c', ?_⟩, rfl, ?_⟩, ?_, rfl, rfl⟩
  · exact .b_block (.stmts_cons hr .stmts_nil)
  · exact .b_block .stmts_nil
  · unfold Sourced Placed
    decide

/-! ## C32 -/

theorem elements_derive (trailing : Bool) (xs : List Element) (h : ∀ x ∈ xs, x.ok) :
    Derives .items (elementToks trailing xs) (xs.map Element.item) := by
  induction xs with
  | nil => exact .items_nil
  | cons x xs ih =>
    obtain ⟨hk, sv, hv⟩ := h x (by simp)
    have ih := ih (fun y hy => h y (by simp [hy]))
    have cons : ∀ {us es}, Derives .items us es →
        Derives .items (x.toks ++ .k .Comma :: us) (x.item :: es) := by
      intro us es hu
      unfold Element.toks Element.item
      cases hxk : x.key with
      | none => simpa using DerivesX.items_cons hv hu
      | some y =>
        obtain ⟨sk, hy⟩ := hk y hxk
        simpa using DerivesX.items_cons_key hy hv hu
    cases xs with
    | nil =>
      cases trailing with
      | true =>
        have := cons .items_nil
        simpa [elementToks] using this
      | false =>
        simp only [elementToks, Bool.false_eq_true, if_false, List.append_nil, List.map_cons, List.map_nil]
        unfold Element.toks Element.item
        cases hxk : x.key with
        | none => simpa using DerivesX.items_one hv
        | some y =>
          obtain ⟨sk, hy⟩ := hk y hxk
          simpa using DerivesX.items_key hy hv
    | cons y ys =>
      have := cons ih
      rw [elementToks]
      · exact this
      · simp

/-- **C32.** `array(...)` and `[...]` around the same elements (any number, with or without keys, with or
without a trailing comma) are parsed to the same array literal: exactly the elements, in order. -/
theorem C32_arrays (m m' : LineMap) (toks toks' : List TokSpan) (xs : List Element) (trailing trailing' : Bool)
    (hP : Sourced toks) (hP' : Sourced toks') (h : ∀ x ∈ xs, x.ok)
    (hv : visible toks = .k .Return :: .k .Array :: .k .ParenthesesOpen ::
      (elementToks trailing xs ++ [.k .ParenthesesClose, .k .SemiColon]))
    (hv' : visible toks' = .k .Return :: .k .SquareBracketOpen ::
      (elementToks trailing' xs ++ [.k .SquareBracketClose, .k .SemiColon])) :
    ParsesTo m toks [bareS (.ret (some (bare (.array (xs.map Element.item)))))] ∧
      ParsesTo m' toks' [bareS (.ret (some (bare (.array (xs.map Element.item)))))] := by
  constructor
  · refine stmt_parses (o := false) hP ?_ (by simp [hv])
    rw [hv]
    have := DerivesX.s_return (.o_some (.e_var (p := 0)
      (.v_array (elements_derive trailing xs h) (.a_nil false _))))
    simpa using this
  · refine stmt_parses (o := false) hP' ?_ (by simp [hv'])
    rw [hv']
    have := DerivesX.s_return (.o_some (.e_var (p := 0)
      (.v_bracket (elements_derive trailing' xs h) (.a_nil false _))))
    simpa using this

/-- The hypotheses of `C32_arrays` hold for `[$a => $b, $c,]`. -/
example :
    let xs : List Element := [⟨some (varOperand c!"a"), varOperand c!"b"⟩, ⟨none, varOperand c!"c"⟩]
    let toks := behindTag (.k .Return :: .k .SquareBracketOpen ::
      (elementToks true xs ++ [.k .SquareBracketClose, .k .SemiColon]))
    (∀ x ∈ xs, x.ok) ∧ Sourced toks ∧ visible toks = .k .Return :: .k .SquareBracketOpen ::
      (elementToks true xs ++ [.k .SquareBracketClose, .k .SemiColon]) ∧ toks.length = 10 := by
  have hv : ∀ n, (varOperand n).isExpr := fun n => ⟨_, .e_var (.v_name n (.a_nil false _))⟩
  refine ⟨?_, ?_, rfl, rfl⟩
  · intro x hx
    simp only [List.mem_cons, List.not_mem_nil, or_false] at hx
    rcases hx with rfl | rfl
    · exact ⟨fun y hy => by cases hy; exact hv _, hv _⟩
    · exact ⟨fun y hy => (by cases hy), hv _⟩
  · unfold Sourced Placed
    decide

/-! ## C25 -/

/-- The part a fragment stands for. -/
def Frag.part : Frag → Part
  | .text s => .inl s
  | .var n => .inr (bare (.var (.name n)))

theorem frags_derive (fs : List Frag) : Derives .parts (fs.map Frag.tok) (fs.map Frag.part) := by
  induction fs with
  | nil => exact .parts_nil
  | cons f fs ih =>
    cases f with
    | text s => exact .parts_text s ih
    | var n =>
      have hv : endsVar (fs.map Frag.tok) = true := by
        cases fs with
        | nil => rfl
        | cons f fs => cases f <;> rfl
      exact DerivesX.parts_var n (.v_name n (.a_nil false _)) hv ih

theorem frags_leaves (fs : List Frag) (h : properFrags fs = true) (t : Text)
    (ht : t = [] ∨ ∀ s gs, fs ≠ .text s :: gs) :
    leaves t (fs.map Frag.part) = (if t = [] then [] else [bare (.str t)]) ++ fs.map Frag.tree := by
  induction fs generalizing t with
  | nil => simp [leaves]
  | cons f fs ih =>
    cases f with
    | text s =>
      have ht' : t = [] := by
        rcases ht with h | h
        · exact h
        · exact absurd rfl (h s fs)
      subst ht'
      cases s with
      | nil => simp [properFrags] at h
      | cons c cs =>
        have hn : properFrags fs = true ∧ ∀ s gs, fs ≠ .text s :: gs := by
          cases fs with
          | nil => exact ⟨rfl, fun _ _ => by simp⟩
          | cons g gs =>
            cases g with
            | text s => simp [properFrags] at h
            | var n => exact ⟨by simpa [properFrags] using h, fun _ _ => by simp⟩
        have := ih hn.1 (c :: cs) (.inr hn.2)
        simpa [leaves, Frag.part, Frag.tree] using this
    | var n =>
      have hn : properFrags fs = true := by simpa [properFrags] using h
      have := ih hn [] (.inl rfl)
      simp only [List.map_cons, Frag.part, leaves, this]
      simp [Frag.tree]

theorem concatAll_leaves (e : Expr) (es : List Expr) (h : ∀ x ∈ e :: es, concatLeaves x = [x]) :
    concatLeaves (concatAll e es) = e :: es := by
  induction es generalizing e with
  | nil => exact h e (by simp)
  | cons e' es ih =>
    simp only [concatAll, concatLeaves, h e (by simp), ih e' (fun x hx => h x (by simp [hx]))]
    rfl

/-- **C25.** The tokens of a double-quoted string made of literal fragments and simple variables are parsed to a
concatenation whose leaves, read left to right, are exactly the fragments and variables, in order. -/
theorem C25_tokens (m : LineMap) (toks : List TokSpan) (fs : List Frag) (hP : Sourced toks)
    (hne : fs ≠ []) (hf : properFrags fs = true)
    (hv : visible toks = .k .Return :: .k .DoubleQuote :: (fs.map Frag.tok ++ [.k .DoubleQuote, .k .SemiColon])) :
    ∃ e, concatLeaves e = fs.map Frag.tree ∧ ParsesTo m toks [bareS (.ret (some e))] := by
  have hl := frags_leaves fs hf [] (.inl rfl)
  simp only [if_true, List.nil_append] at hl
  cases hm : fs.map Frag.tree with
  | nil => cases fs <;> simp_all
  | cons e es =>
    rw [hm] at hl
    refine ⟨concatAll e es, concatAll_leaves e es ?_, ?_⟩
    · intro x hx
      rw [← hm] at hx
      obtain ⟨f, _, rfl⟩ := List.mem_map.1 hx
      cases f <;> rfl
    · refine stmt_parses (o := false) hP ?_ (by simp [hv])
      rw [hv]
      have := DerivesX.s_return (.o_some (.e_string (p := 0) (frags_derive fs) hl))
      simpa using this

/-- The hypotheses of `C25_tokens` hold for `"x$a$b y"`. -/
example :
    let fs : List Frag := [.text c!"x", .var c!"a", .var c!"b", .text c!" y"]
    let toks := behindTag (.k .Return :: .k .DoubleQuote :: (fs.map Frag.tok ++ [.k .DoubleQuote, .k .SemiColon]))
    fs ≠ [] ∧ properFrags fs = true ∧ Sourced toks ∧ toks.length = 8 ∧
      visible toks = .k .Return :: .k .DoubleQuote :: (fs.map Frag.tok ++ [.k .DoubleQuote, .k .SemiColon]) := by
  refine ⟨by simp, rfl, ?_, rfl, rfl⟩
  unfold Sourced Placed
  decide

/-! ## C26 -/

/-- **C26**, the tree: a name with any number of segments, in an expression. The identifier is the last
segment, the namespace is the others joined by separators, the path is absolute exactly with a leading
separator. (The words `true`, `false` and `null` are constants.) -/
theorem C26_name (m : LineMap) (toks : List TokSpan) (abs : Bool) (ns : List Text) (id : Text)
    (hP : Sourced toks) (hid : ns = [] → id.map lowerAscii ∉ [c!"true", c!"false", c!"null"])
    (hv : visible toks = .k .Return :: (qualToks abs ns id ++ [.k .SemiColon])) :
    ParsesTo m toks [bareS (.ret (some (bare (.path
      ⟨abs, if ns = [] then none else some (List.intercalate ['\\'] ns), id⟩))))] := by
  refine stmt_parses (o := false) hP ?_ (by simp [hv])
  rw [hv]
  have hd := DerivesX.s_return (lax := false) (.o_some (.e_name (p := 0) (.qual abs ns id)))
  have hc : constOf (qualPath abs ns id) = .path (qualPath abs ns id) := by
    unfold constOf
    by_cases h : ns = []
    · have := hid h
      simp only [List.mem_cons, List.not_mem_nil, or_false, not_or] at this
      simp [qualPath, h, this.1, this.2.1, this.2.2]
    · simp [qualPath, h]
  rw [hc] at hd
  exact hd

/-- The hypotheses of `C26_name` hold for `\A\B\c`. -/
example :
    let toks := behindTag (.k .Return :: (qualToks true [c!"A", c!"B"] c!"c" ++ [.k .SemiColon]))
    Sourced toks ∧ ([c!"A", c!"B"] = [] → (c!"c").map lowerAscii ∉ [c!"true", c!"false", c!"null"]) ∧
      visible toks = .k .Return :: (qualToks true [c!"A", c!"B"] c!"c" ++ [.k .SemiColon]) ∧ toks.length = 8 ∧
      nameText true [c!"A", c!"B"] c!"c" = c!"\\A\\B\\c" := by
  refine ⟨?_, by decide, rfl, rfl, by decide⟩
  unfold Sourced Placed
  decide

theorem intercalate_snoc (ns : List Text) (id : Text) (h : ns ≠ []) :
    List.intercalate ['\\'] (ns ++ [id]) = List.intercalate ['\\'] ns ++ ('\\' :: id) := by
  induction ns with
  | nil => exact absurd rfl h
  | cons x xs ih =>
    cases xs with
    | nil => simp [List.intercalate, List.intersperse]
    | cons y ys =>
      have := ih (by simp)
      simp only [List.intercalate, List.cons_append, List.intersperse_cons₂, List.flatten_cons] at this ⊢
      rw [this]
      simp [List.append_assoc]

/-- **C26**, printing: the path is printed as it was written. -/
theorem C26_print (dbl : Text → Text) (abs : Bool) (ns : List Text) (id : Text) (sp : Span) :
    printExprToString dbl (.mk (.path (qualPath abs ns id)) sp) = some (nameText abs ns id) := by
  cases ns with
  | nil =>
    cases abs <;>
      simp [printExprToString, pExpr, pExprK, wrPath, qualPath, W.cond, W.seq, W.skip, wr, stringTarget,
        WSt.new, nameText, List.intercalate, List.intersperse]
  | cons x xs =>
    rw [nameText, intercalate_snoc (x :: xs) id (by simp)]
    cases abs <;>
      simp [printExprToString, pExpr, pExprK, wrPath, qualPath, W.cond, W.seq, W.skip, wr, stringTarget,
        WSt.new]

/-! ## C23 -/

/-- A run of labels without statements, then a label with statements: one case with all these labels. -/
theorem casesOf_run (run : List Expr) (l : Option Expr) (b : List Stmt) (hb : b ≠ [])
    (rest : List (Option Expr × List Stmt)) (pend : List Expr) :
    casesOf pend false (run.map (fun e => (some e, [])) ++ (l, b) :: rest) =
      .mk (pend ++ run ++ l.toList) l.isNone b :: casesOf [] false rest := by
  induction run generalizing pend with
  | nil =>
    cases b with
    | nil => exact absurd rfl hb
    | cons s ss => cases l <;> simp [casesOf]
  | cons e es ih =>
    simp only [List.map_cons, List.cons_append, casesOf]
    rw [ih]
    simp

/-- A group of a switch: some labels without statements, then a label (`none` is `default`) with statements. -/
structure Group where
  labels : List Expr
  last : Option Expr
  body : List Stmt

def Group.clauses (g : Group) : List (Option Expr × List Stmt) :=
  g.labels.map (fun e => (some e, [])) ++ [(g.last, g.body)]

def Group.case (g : Group) : Case := .mk (g.labels ++ g.last.toList) g.last.isNone g.body

theorem casesOf_groups (gs : List Group) (h : ∀ g ∈ gs, g.body ≠ []) (tail : List Expr) :
    casesOf [] false (gs.flatMap Group.clauses ++ tail.map (fun e => (some e, []))) =
      gs.map Group.case ++ tail.map (fun e => .mk [e] false []) := by
  induction gs with
  | nil =>
    have key : ∀ (tail pend : List Expr), casesOf pend false (tail.map (fun e => (some e, []))) =
        (pend ++ tail).map (fun e => .mk [e] false []) := by
      intro tail
      induction tail with
      | nil => intro pend; simp [casesOf]
      | cons e es ih => intro pend; simp only [List.map_cons, casesOf]; rw [ih]; simp
    simpa using key tail []
  | cons g gs ih =>
    have e : (g :: gs).flatMap Group.clauses ++ tail.map (fun e => ((some e, []) : Option Expr × List Stmt)) =
        g.labels.map (fun e => (some e, [])) ++ (g.last, g.body) ::
          (gs.flatMap Group.clauses ++ tail.map (fun e => (some e, []))) := by
      simp [Group.clauses]
    rw [e, casesOf_run _ _ _ (h g (by simp)), ih (fun g' hg => h g' (by simp [hg]))]
    simp [Group.case]

/-- **C23**, for a switch whose `default` (if any) has statements: each body comes with exactly the labels that
fall through to it, in order; `default` is a label like the others; labels at the end without statements stand
for themselves. Missing: `default` without statements, which the parser drops (`C23_fails`). -/
theorem C23_switch_partial (m : LineMap) (toks : List TokSpan) (s : Nat) (es : List Token) (e : Expr)
    (ts : List Token) (gs : List Group) (tail : List Expr) (hP : Sourced toks) (hg : ∀ g ∈ gs, g.body ≠ [])
    (he : Derives (.expr 0 s) es e)
    (hc : Derives .clauses ts (gs.flatMap Group.clauses ++ tail.map (fun e => (some e, []))))
    (hv : visible toks = .k .Switch :: .k .ParenthesesOpen :: (es ++ .k .ParenthesesClose ::
      .k .CurlyBracesOpen :: (ts ++ [.k .CurlyBracesClose]))) :
    ParsesTo m toks [bareS (.switch e (gs.map Group.case ++ tail.map (fun e => .mk [e] false [])))] := by
  refine stmt_parses (o := false) hP ?_ (by simp [hv])
  rw [hv, ← casesOf_groups gs hg tail]
  exact .s_switch he hc

/-- The hypotheses of `C23_switch_partial` hold for
`switch ($a) { case 1: case 2: return; default: return; case 3: }`. -/
example :
    let i := fun (n : Nat) => (bare (.int n) : Expr)
    let r := bareS (.ret none)
    let gs : List Group := [⟨[i 1], some (i 2), [r]⟩, ⟨[], none, [r]⟩]
    let ts : List Token := [.k .Case, .int 1, .k .Colon, .k .Case, .int 2, .k .Colon, .k .Return, .k .SemiColon,
      .k .Default, .k .Colon, .k .Return, .k .SemiColon, .k .Case, .int 3, .k .Colon]
    (∀ g ∈ gs, g.body ≠ []) ∧ Derives (.expr 0 prefixLevel) [.variable c!"a"] (bare (.var (.name c!"a"))) ∧
      Derives .clauses ts (gs.flatMap Group.clauses ++ [i 3].map (fun e => (some e, []))) ∧
      gs.map Group.case = [.mk [i 1, i 2] false [r], .mk [] true [r]] := by
  have hr : Derives .stmts [.k .Return, .k .SemiColon] [bareS (.ret none)] :=
    .stmts_cons (.s_return .o_none) .stmts_nil
  refine ⟨by simp, .e_var (.v_name _ (.a_nil false _)), ?_, rfl⟩
  exact .clauses_case true (.e_int 1) .stmts_nil (.clauses_case true (.e_int 2) hr
    (.clauses_default true hr (by simp) (.clauses_case true (.e_int 3) .stmts_nil .clauses_nil)))

/-! ## C33 -/

/-- **C33**, classes: declarations that differ only in the order and repetition of the class modifiers are
parsed to the same tree, whose modifier set has exactly the modifiers written. -/
theorem C33_class (m m' : LineMap) (toks toks' : List TokSpan) (ms ms' : List ClassModifier) (n : Text)
    {xts its mts : List Token} {base : Option Path} {impls : List Path} {members : List Member}
    (hP : Sourced toks) (hP' : Sourced toks') (hsame : ∀ x, x ∈ ms ↔ x ∈ ms') (hx : OptBase xts base)
    (hi : OptNames .Implements its impls) (hm : Derives .members mts members)
    (hv : visible toks = classModifierToks ms ++ .k .Class :: .string n :: (xts ++ (its ++
        .k .CurlyBracesOpen :: (mts ++ [.k .CurlyBracesClose]))))
    (hv' : visible toks' = classModifierToks ms' ++ .k .Class :: .string n :: (xts ++ (its ++
        .k .CurlyBracesOpen :: (mts ++ [.k .CurlyBracesClose])))) :
    ∃ set : ClassModifiers, (∀ x, set.has x = true ↔ x ∈ ms) ∧
      ParsesTo m toks [bareS (.decl (.cls set n base impls members))] ∧
      ParsesTo m' toks' [bareS (.decl (.cls set n base impls members))] := by
  refine ⟨ClassModifiers.new ms, C03_class_modifiers ms, ?_, ?_⟩
  · refine stmt_parses (o := false) hP ?_ (by simp [hv])
    rw [hv]
    exact .s_class ms n hx hi hm
  · refine stmt_parses (o := false) hP' ?_ (by simp [hv'])
    rw [hv', C03_extensional_class ms ms' hsame]
    exact .s_class ms' n hx hi hm

/-- What follows the modifiers of a member: its tokens and, for a modifier set, its trees. -/
inductive MemberRest : List Token → (MemberModifiers → List Member) → Prop
  | property {ts : List Token} {vs : List (Text × Option Expr)} (h : Derives .vars ts vs) :
      MemberRest (ts ++ [.k .SemiColon]) fun s => vs.map fun v => .property s v.1 v.2
  | const {ts : List Token} {cs : List (Text × Expr)} (h : Derives .consts ts cs) :
      MemberRest (.k .Const :: (ts ++ [.k .SemiColon])) fun s => cs.map fun c => .constant s c.1 c.2
  | method (r : Bool) (n : Text) {ts : List Token} {f : FnDecl} (h : Derives (.fn false true r) ts f) :
      MemberRest (.k .Function :: (refToks r ++ .string n :: ts)) fun s => [.method s n f]

theorem memberRest_derives {ts : List Token} {f : MemberModifiers → List Member} (h : MemberRest ts f)
    (ms : List MemberModifier) : Derives .member (memberModifierToks ms ++ ts) (f (MemberModifiers.new ms)) := by
  cases h with
  | property h => exact .m_property ms h
  | const h => exact .m_const ms h
  | method r n h => exact .m_method ms r n h

/-- **C33**, members: declarations that differ only in the order and repetition of the modifiers of a property,
constant or method are parsed to the same tree, whose modifier set has exactly the modifiers written. -/
theorem C33_member (m m' : LineMap) (toks toks' : List TokSpan) (ms ms' : List MemberModifier) (n : Text)
    {ts : List Token} {f : MemberModifiers → List Member} (hP : Sourced toks) (hP' : Sourced toks')
    (hsame : ∀ x, x ∈ ms ↔ x ∈ ms') (h : MemberRest ts f)
    (hv : visible toks = .k .Class :: .string n :: .k .CurlyBracesOpen ::
      (memberModifierToks ms ++ ts ++ [.k .CurlyBracesClose]))
    (hv' : visible toks' = .k .Class :: .string n :: .k .CurlyBracesOpen ::
      (memberModifierToks ms' ++ ts ++ [.k .CurlyBracesClose])) :
    ∃ set : MemberModifiers, (∀ x, set.has x = true ↔ x ∈ ms) ∧
      ParsesTo m toks [bareS (.decl (.cls ClassModifiers.none n none [] (f set)))] ∧
      ParsesTo m' toks' [bareS (.decl (.cls ClassModifiers.none n none [] (f set)))] := by
  have key : ∀ ms : List MemberModifier, Derives (.stmt false) (.k .Class :: .string n :: .k .CurlyBracesOpen ::
      (memberModifierToks ms ++ ts ++ [.k .CurlyBracesClose]))
      (bareS (.decl (.cls ClassModifiers.none n none [] (f (MemberModifiers.new ms))))) := by
    intro ms
    have := DerivesX.s_class [] n .none .none (.members_cons (memberRest_derives h ms) .members_nil)
    simpa [classModifierToks, ClassModifiers.new, ClassModifiers.none] using this
  refine ⟨MemberModifiers.new ms, C03_member_modifiers ms, ?_, ?_⟩
  · refine stmt_parses (o := false) hP ?_ (by simp [hv])
    rw [hv]
    exact key ms
  · refine stmt_parses (o := false) hP' ?_ (by simp [hv'])
    rw [hv', C03_extensional_member ms ms' hsame]
    exact key ms'

/-- The hypotheses of `C33_member` hold for `class A { static public static $x = 1; }` against
`class A { public static $x = 1; }`, those of `C33_class` for `final abstract class A {}`. -/
example :
    let ms : List MemberModifier := [.Static, .Public, .Static]
    let ms' : List MemberModifier := [.Public, .Static]
    let ts : List Token := [.variable c!"x", .k .Equal, .int 1] ++ [.k .SemiColon]
    let toks := behindTag (.k .Class :: .string c!"A" :: .k .CurlyBracesOpen ::
      (memberModifierToks ms ++ ts ++ [.k .CurlyBracesClose]))
    (∀ x, x ∈ ms ↔ x ∈ ms') ∧ MemberRest ts (fun s => [.property s c!"x" (some (bare (.int 1)))]) ∧ Sourced toks ∧
      visible toks = .k .Class :: .string c!"A" :: .k .CurlyBracesOpen ::
        (memberModifierToks ms ++ ts ++ [.k .CurlyBracesClose]) ∧
      OptBase [] none ∧ OptNames .Implements [] [] ∧ Derives .members [] [] := by
  refine ⟨?_, .property (.vars_one c!"x" (.dflt_some (.e_int 1))), ?_, rfl, .none, .none, .members_nil⟩
  · intro x
    cases x <;> decide
  · unfold Sourced Placed
    decide

/-- The modifiers in the order in which they are printed, with their words. -/
def memberModifierWords : List (MemberModifier × Text) :=
  [(.Public, c!"public"), (.Protected, c!"protected"), (.Private, c!"private"), (.Static, c!"static"),
   (.Abstract, c!"abstract"), (.Final, c!"final")]

def classModifierWords : List (ClassModifier × Text) := [(.Abstract, c!"abstract"), (.Final, c!"final")]

/-- Each modifier of `ms` once, in canonical order, each followed by a blank. -/
def memberModifierText (ms : List MemberModifier) : Text :=
  (memberModifierWords.filter fun x => ms.contains x.1).flatMap fun x => x.2 ++ c!" "

def classModifierText (ms : List ClassModifier) : Text :=
  (classModifierWords.filter fun x => ms.contains x.1).flatMap fun x => x.2 ++ c!" "

theorem has_contains (ms : List MemberModifier) (x : MemberModifier) :
    (MemberModifiers.new ms).has x = ms.contains x := by
  have := C03_member_modifiers ms x
  cases h : (MemberModifiers.new ms).has x <;> cases h' : ms.contains x <;> simp_all

theorem has_contains_class (ms : List ClassModifier) (x : ClassModifier) :
    (ClassModifiers.new ms).has x = ms.contains x := by
  have := C03_class_modifiers ms x
  cases h : (ClassModifiers.new ms).has x <;> cases h' : ms.contains x <;> simp_all

theorem memberModifiers_text (ms : List MemberModifier) :
    chunkText (cMemberModifiers (MemberModifiers.new ms)) = some (memberModifierText ms) := by
  unfold cMemberModifiers memberModifierText memberModifierWords
  simp only [has_contains, List.filter_cons, List.filter_nil]
  cases ms.contains .Public <;> cases ms.contains .Protected <;> cases ms.contains .Private <;>
    cases ms.contains .Static <;> cases ms.contains .Abstract <;> cases ms.contains .Final <;> rfl

theorem classModifiers_text (ms : List ClassModifier) :
    chunkText (cClassModifiers (ClassModifiers.new ms)) = some (classModifierText ms) := by
  unfold cClassModifiers classModifierText classModifierWords
  simp only [has_contains_class, List.filter_cons, List.filter_nil]
  cases ms.contains .Abstract <;> cases ms.contains .Final <;> rfl

theorem chunk_hole (a b : List Chunk) : ∃ r : Option (Text × Text), ∀ (c : List Chunk) (x : Text),
    chunkText c = some x → chunkText (a ++ (c ++ b)) = r.map fun p => p.1 ++ x ++ p.2 := by
  refine ⟨(chunkText a).bind fun y => (chunkText b).map fun z => (y, z), ?_⟩
  intro c x hc
  simp only [chunkText_append, hc]
  cases chunkText a <;> cases chunkText b <;> simp

/-- A property, a constant or a method that lacks only its modifiers. -/
inductive MemberShape : (MemberModifiers → Member) → Prop
  | property (n : Text) (e : Option Expr) : MemberShape fun s => .property s n e
  | const (n : Text) (e : Expr) : MemberShape fun s => .constant s n e
  | method (n : Text) (f : FnDecl) : MemberShape fun s => .method s n f

/-- **C33**, printing a member: whatever the modifiers, each is written once in the canonical order, and the rest
of the text does not depend on them. -/
theorem C33_print_member (dbl : Text → Text) (mk : MemberModifiers → Member) (hmk : MemberShape mk)
    (cmod : ClassModifiers) (n : Text) (base : Option Path) (impls : List Path) (sp : Span) :
    ∃ r : Option (Text × Text), ∀ ms : List MemberModifier,
      printToString dbl [.mk (.decl (.cls cmod n base impls [mk (MemberModifiers.new ms)])) sp] =
        r.map fun p => p.1 ++ memberModifierText ms ++ p.2 := by
  have key : ∃ a b : List Chunk, ∀ s : MemberModifiers,
      cMembers dbl 1 [mk s] = a ++ (cMemberModifiers s ++ b) := by
    cases hmk with
    | property n e =>
      refine ⟨ind 1 [], w c!" $" ++ (w n ++ ((match e with
        | some e => w c!"=" ++ cExpr dbl 1 e
        | none => []) ++ (w c!";" ++ w c!"\n"))), fun s => ?_⟩
      cases e <;> simp only [cMembers, cMember, List.append_assoc, List.append_nil]
    | const n e =>
      refine ⟨ind 1 [], w c!" const " ++ (w n ++ (w c!"=" ++ (cExpr dbl 1 e ++ (w c!";" ++ w c!"\n")))), fun s => ?_⟩
      simp only [cMembers, cMember, List.append_assoc, List.append_nil]
    | method n f =>
      refine ⟨ind 1 [], w c!" " ++ (cFn dbl 1 (some n) f ++ w c!"\n"), fun s => ?_⟩
      simp only [cMembers, cMember, List.append_assoc, List.append_nil]
  obtain ⟨a, b, hab⟩ := key
  have key' : ∃ a' b' : List Chunk, ∀ s : MemberModifiers,
      cStmts dbl 0 [.mk (.decl (.cls cmod n base impls [mk s])) sp] = a' ++ (cMemberModifiers s ++ b') := by
    refine ⟨ind 0 [] ++ (cClassModifiers cmod ++ (w c!"class " ++ (w n ++ (w c!" " ++
      (opt base (fun b => w c!"extends " ++ (cPath b ++ w c!" ")) ++
      (cnd (!impls.isEmpty) (w c!"implements " ++ cPaths true impls) ++ (w c!" {\n" ++ a))))))),
      b ++ ind 0 c!"}", fun s => ?_⟩
    simp only [cStmts, cStmt, cStmtK, cDecl, hab, cMemberBody, List.append_assoc, List.append_nil]
  obtain ⟨a', b', h'⟩ := key'
  obtain ⟨r, hr⟩ := chunk_hole a' b'
  refine ⟨r, fun ms => ?_⟩
  rw [printToString_eq, h', hr _ _ (memberModifiers_text ms)]

/-- **C33**, printing a class: each class modifier is written once in the canonical order, and the rest of the
text does not depend on them. -/
theorem C33_print_class (dbl : Text → Text) (n : Text) (base : Option Path) (impls : List Path)
    (members : List Member) (sp : Span) :
    ∃ r : Option Text, ∀ ms : List ClassModifier,
      printToString dbl [.mk (.decl (.cls (ClassModifiers.new ms) n base impls members)) sp] =
        r.map fun p => classModifierText ms ++ p := by
  have key' : ∃ b' : List Chunk, ∀ s : ClassModifiers,
      cStmts dbl 0 [.mk (.decl (.cls s n base impls members)) sp] = w [] ++ (cClassModifiers s ++ b') := by
    refine ⟨w c!"class " ++ (w n ++ (w c!" " ++ (opt base (fun b => w c!"extends " ++ (cPath b ++ w c!" ")) ++
      (cnd (!impls.isEmpty) (w c!"implements " ++ cPaths true impls) ++ cMemberBody 0 (cMembers dbl 1 members))))),
      fun s => ?_⟩
    simp only [cStmts, cStmt, cStmtK, cDecl, List.append_assoc, List.append_nil]
    rfl
  obtain ⟨b', h'⟩ := key'
  refine ⟨chunkText b', fun ms => ?_⟩
  rw [printToString_eq, h']
  simp only [chunkText_append, classModifiers_text]
  cases chunkText b' <;> simp [w, chunkText]

/-- A printed class with a member: the printer does not abort and the modifiers come out once, in order. -/
example : printToString id [bareS (.decl (.cls (ClassModifiers.new [.Final, .Abstract, .Final]) c!"A" none []
      [.property (MemberModifiers.new [.Static, .Public, .Static]) c!"x" none]))] =
    some c!"abstract final class A  {\n    public static  $x;\n}" := by
  decide +kernel

/-- **C33**, reading back: the words printed for a set are tokenized (`C10_identifiers_partial`) to the modifier
keywords in canonical order, and these mean the same set again (so by `C33_member` the declaration is read back
with its set). -/
theorem C33_read_back (ms : List MemberModifier) :
    (∀ x ∈ memberModifierWords, identifierToken x.2 = .k (modifierKw x.1)) ∧
    MemberModifiers.new ((memberModifierWords.filter fun x => ms.contains x.1).map Prod.fst) =
      MemberModifiers.new ms := by
  refine ⟨by decide, C03_extensional_member _ _ fun x => ?_⟩
  have hall : ∃ t, (x, t) ∈ memberModifierWords := by cases x <;> exact ⟨_, by simp [memberModifierWords]; rfl⟩
  obtain ⟨t, ht⟩ := hall
  constructor
  · intro h
    obtain ⟨y, hy, rfl⟩ := List.mem_map.1 h
    simpa using (List.mem_filter.1 hy).2
  · intro h
    exact List.mem_map.2 ⟨(x, t), List.mem_filter.2 ⟨ht, by simpa using h⟩, rfl⟩

theorem C33_read_back_class (ms : List ClassModifier) :
    (∀ x ∈ classModifierWords, identifierToken x.2 = .k (classModifierKw x.1)) ∧
    ClassModifiers.new ((classModifierWords.filter fun x => ms.contains x.1).map Prod.fst) =
      ClassModifiers.new ms := by
  refine ⟨by decide, C03_extensional_class _ _ fun x => ?_⟩
  have hall : ∃ t, (x, t) ∈ classModifierWords := by cases x <;> exact ⟨_, by simp [classModifierWords]; rfl⟩
  obtain ⟨t, ht⟩ := hall
  constructor
  · intro h
    obtain ⟨y, hy, rfl⟩ := List.mem_map.1 h
    simpa using (List.mem_filter.1 hy).2
  · intro h
    exact List.mem_map.2 ⟨(x, t), List.mem_filter.2 ⟨ht, by simpa using h⟩, rfl⟩

end Pico
