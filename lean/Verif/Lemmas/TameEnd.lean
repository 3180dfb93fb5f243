import Verif.Lemmas.TameNext
import Verif.Lemmas.LayNext
/-! # Reading a text whose expressions between braces are simple comes to an end -/
namespace Pico
open T

theorem Link.noEnd {g g' : Region} {i i' : Text} {k : Token} (h : Link g i k g' i') : k ≠ .k .End := by
  induction h with
  | piece b w c hb hc hw hg => exact fun h => hw.noEnd h.symm
  | name => nofun
  | arrow => nofun
  | none _ _ _ _ _ _ ih => exact ih

theorem Inv.inside {t : Tz} (h : Inv t) : t.st.srcPos ≤ byteLen t.code := by
  rcases h.lines with h | ⟨⟨s, w, r, h1, -⟩, -⟩
  · exact h.pos
  · have := h1.total
    omega

theorem rounds_le (s : TState) : rounds s ≤ 2 := by
  unfold rounds; split <;> decide

/-- A simple expression between braces is read to its end. -/
theorem block_ends {code : Text} {f : Nat} (hn : BlkNext (nextToken f) code) (p : Nat)
    (hf : ∀ v, Inv v → v.code = code → p ≤ v.st.srcPos → nextToken f v ≠ .oof) :
    ∀ n t g i r acc, Blk code t g i r → Inv t → p ≤ t.st.srcPos → byteLen code - t.st.srcPos + 2 ≤ n → blockLoop (nextToken f) n acc t ≠ .oof := by
  intro n
  induction n with
  | zero => intro t g i r acc _ _ _ h; omega
  | succ n ih =>
    intro t g i r acc hb hi hp hle
    have h1 := hn.step t g i r hb
    have h2 := next_stuck f t hi
    have h3 := hf t hi hb.code hp
    unfold Twp at h1 h2
    unfold blockLoop
    cases hx : nextToken f t with
    | panic q => nofun
    | oof => exact absurd hx h3
    | err e u => nofun
    | ok x u =>
      rw [hx] at h1 h2
      dsimp only at h1 h2 ⊢
      have key : x.tok ≠ .k .End → t.st.srcPos < u.st.srcPos := by
        intro he
        rcases h2.prog with h | h | ⟨_, h⟩
        · exact absurd h he
        · exact h
        · rw [hb.queue] at h
          exact absurd h (Nat.not_lt_zero _)
      have hu := h2.inv.inside
      rw [h2.code, hb.code] at hu
      rcases h1 with ⟨g', i', k1, k2⟩ | ⟨k1, k2, k3, k4, s, _, k5⟩
      · have hlt := key k2.noEnd
        exact ih u g' i' r _ k1 h2.inv (by omega) (by omega)
      · have hlt := key fun h => k5.noEnd (by simp [h])
        cases n with
        | zero => omega
        | succ n =>
          have h8 := hn.stop u r k1 k2 k3 k4
          have h9 := hf u h2.inv k1 (by omega)
          unfold Twp at h8
          unfold blockLoop
          cases hy : nextToken f u with
          | panic q => nofun
          | oof => exact absurd hy h9
          | ok y v => rw [hy] at h8; exact h8.elim
          | err e v => nofun

/-- The fuel with which every token of a text is read. -/
theorem next_ends {code : Text} (hw : ¬ HasWild code) (hst : ¬ HasStray code) : ∀ (m : Nat) (t : Tz), Inv t → t.code = code →
    byteLen code - t.st.srcPos = m → ∀ fuel, rounds t.st + 2 * m ≤ fuel → nextToken fuel t ≠ .oof := by
  intro m
  induction m using Nat.strongRecOn with
  | ind m ih =>
    intro t hi hc hm fuel hf ho
    have h1 := next_stuck fuel t hi
    unfold Twp at h1
    rw [ho] at h1
    rcases h1 with ⟨f, hle, u, acc, hop, hlt, hstuck⟩ | h1
    · rw [hc] at hop
      obtain ⟨hiu, hcu, hs, hk, s, pre, ha, hpre⟩ := hop
      have ht : ∃ r, TameAt s r := by
        rcases hpre with ⟨e, q, rfl⟩ | e
        · obtain ⟨r, w, rfl, ht⟩ := wild_at (pre := pre) (rest := q) hw (.inl (by rw [e]; simp))
          exact ⟨r, '$' :: w, rfl, .code '$' (by decide) ht⟩
        · exact wild_at hw (.inr e)
      obtain ⟨r, ht⟩ := ht
      have hin := hiu.inside
      rw [hcu] at hin
      refine block_ends (blkNext_all hw hst f) u.st.srcPos ?_ f u .script s r acc
        ⟨hcu, hiu.queue (by rw [hs]; nofun), ha, ht, .inl ⟨rfl, hs, hk⟩⟩ hiu (Nat.le_refl _) (by omega) hstuck
      intro v hv hcv hpv
      have := rounds_le v.st
      exact ih (byteLen code - v.st.srcPos) (by omega) v hv hcv rfl f (by omega)
    · omega

end Pico
