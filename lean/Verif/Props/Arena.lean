import Verif.Model.Arena
import Mathlib.Data.List.Nodup

/-! C46, C47, C117: arenas. -/
namespace Verif.Props
open Verif Verif.Arena

/-! ### C46 -/

/-- A program using an arena: the arena, the bytes, the allocations it may use, and for each scope it is in
the mark, the allocations that were live and the bytes in use when the scope began. -/
structure ASt where
  a : Arena
  m : Mem
  live : List Chunk
  marks : List (Mark × List Chunk × Nat)

/-- The steps of a program. Scopes end in the reverse order of their beginning; an arena is reset outside
scopes. -/
inductive AStep : ASt → ASt → Prop where
  | alloc {s : ASt} (n : Nat) (a' : Arena) (c : Chunk) : n ≤ 2 ^ 62 → alloc s.a n = .ok (a', c) →
      AStep s ⟨a', clear s.m c, c :: s.live, s.marks⟩
  | write {s : ASt} (c : Chunk) (k : Nat) (v : BitVec 8) : c ∈ s.live → k < c.size →
      AStep s { s with m := fun i j => if i = c.id ∧ j = c.off + k then v else s.m i j }
  | save {s : ASt} : AStep s { s with marks := (save s.a, s.live, usage s.a) :: s.marks }
  | restore {s : ASt} (mk : Mark) (l : List Chunk) (u : Nat) (ms : List (Mark × List Chunk × Nat)) :
      s.marks = (mk, l, u) :: ms → AStep s ⟨restore s.a mk, s.m, l, ms⟩
  | reset {s : ASt} : s.marks = [] → AStep s ⟨reset s.a, s.m, [], []⟩

inductive AReach (size : Nat) : ASt → Prop where
  | init (m : Mem) : AReach size ⟨create size, m, [], []⟩
  | step {s s' : ASt} : AReach size s → AStep s s' → AReach size s'

/-- Two allocations share no byte. -/
def Disjoint' (c d : Chunk) : Prop := c.id ≠ d.id ∨ c.off + c.size ≤ d.off ∨ d.off + d.size ≤ c.off

private def MarkCov (bs : List Block) (i u : Nat) (c : Chunk) : Prop :=
  ∃ j b, bs[j]? = some b ∧ b.id = c.id ∧ (j < i ∧ c.off + c.size ≤ b.used ∨ j = i ∧ c.off + c.size ≤ u)

private def MarksOk (bs : List Block) : Nat → List Chunk → List (Mark × List Chunk × Nat) → Prop
  | _, _, [] => True
  | ci, live, (mk, l, u) :: ms => ∃ i u0 b, mk = some (i, u0) ∧ i ≤ ci ∧ bs[i]? = some b ∧ u0 ≤ b.size ∧
      u0 % 8 = 0 ∧ l.Sublist live ∧ (∀ c ∈ l, MarkCov bs i u0 c) ∧
      u = ((bs.take i).map Block.used).sum + u0 ∧ MarksOk bs i l ms

private def Agree (i : Nat) (bs bs' : List Block) : Prop :=
  bs'.take i = bs.take i ∧ ∃ b b', bs[i]? = some b ∧ bs'[i]? = some b' ∧ b'.id = b.id ∧ b'.size = b.size

private theorem take_get {bs bs' : List Block} {i j : Nat} (h : bs'.take i = bs.take i) (hj : j < i) :
    bs'[j]? = bs[j]? := by
  have := congrArg (fun l => l[j]?) h
  simpa [List.getElem?_take, hj] using this

private theorem agree_mono {i j : Nat} {bs bs' : List Block} (h : Agree i bs bs') (hj : j ≤ i) :
    Agree j bs bs' := by
  obtain ⟨h1, b, b', h2, h3, h4, h5⟩ := h
  have ht : bs'.take j = bs.take j := by
    have := congrArg (List.take j) h1
    simpa [List.take_take, Nat.min_eq_left hj] using this
  refine ⟨ht, ?_⟩
  by_cases e : j = i
  · subst e; exact ⟨b, b', h2, h3, h4, h5⟩
  · have e2 := take_get h1 (show j < i by omega)
    have hl : j < bs.length := by
      have := (List.getElem?_eq_some_iff.1 h2).1
      omega
    exact ⟨bs[j], bs[j], List.getElem?_eq_getElem hl, by rw [e2]; exact List.getElem?_eq_getElem hl, rfl, rfl⟩

private theorem cov_agree {i u : Nat} {bs bs' : List Block} (h : Agree i bs bs') {c : Chunk}
    (hc : MarkCov bs i u c) : MarkCov bs' i u c := by
  obtain ⟨j, b, h1, h2, h3⟩ := hc
  rcases h3 with ⟨h3, h4⟩ | ⟨h3, h4⟩
  · exact ⟨j, b, by rw [take_get h.1 h3]; exact h1, h2, .inl ⟨h3, h4⟩⟩
  · subst h3
    obtain ⟨-, x, x', e1, e2, e3, e4⟩ := h
    rw [h1] at e1
    cases e1
    exact ⟨j, x', e2, by rw [e3, h2], .inr ⟨rfl, h4⟩⟩

private theorem marks_frame {bs bs' : List Block} {ci ci' : Nat} {live live' : List Chunk}
    {ms : List (Mark × List Chunk × Nat)} (ha : Agree ci bs bs') (hc : ci ≤ ci') (hl : live.Sublist live')
    (h : MarksOk bs ci live ms) : MarksOk bs' ci' live' ms := by
  induction ms generalizing ci ci' live live' with
  | nil => trivial
  | cons x ms ih =>
    obtain ⟨mk, l, u⟩ := x
    obtain ⟨i, u0, b, h1, h2, h3, h4, h5, h6, h7, h8, h9⟩ := h
    have hai := agree_mono ha h2
    obtain ⟨ht, y, y', e1, e2, e3, e4⟩ := id hai
    rw [h3] at e1
    cases e1
    refine ⟨i, u0, y', h1, by omega, e2, by rw [e4]; exact h4, h5, h6.trans hl,
      fun c hc => cov_agree hai (h7 c hc), by rw [ht]; exact h8, ih hai (Nat.le_refl _) (List.Sublist.refl _) h9⟩

private structure Inv (s : ASt) : Prop where
  des : s.a.destroyed = false
  dfl : s.a.dflt ≤ 2 ^ 62
  cur : s.a.cur < s.a.blocks.length
  nod : (s.a.blocks.map Block.id).Nodup
  mad : ∀ b ∈ s.a.blocks, b.id < s.a.made
  siz : ∀ b ∈ s.a.blocks, b.used ≤ b.size ∧ b.size ≤ 2 ^ 62 ∧ b.used % 8 = 0
  aft : ∀ j b, s.a.cur < j → s.a.blocks[j]? = some b → b.used = 0
  liv : ∀ c ∈ s.live, c.off % 8 = 0 ∧ ∃ j b, j ≤ s.a.cur ∧ s.a.blocks[j]? = some b ∧ b.id = c.id ∧
    c.off + c.size ≤ b.used
  dis : s.live.Pairwise Disjoint'
  mks : MarksOk s.a.blocks s.a.cur s.live s.marks

private theorem align_ok {n : Nat} (h : n ≤ 2 ^ 62) : n ≤ alignUp n ∧ alignUp n ≤ 2 ^ 62 ∧ alignUp n % 8 = 0 := by
  rw [alignUp, Nat.mod_eq_of_lt (by omega)]
  omega

private theorem nodup_inj {bs : List Block} (h : (bs.map Block.id).Nodup) {i j : Nat} {b d : Block}
    (hi : bs[i]? = some b) (hj : bs[j]? = some d) (e : b.id = d.id) : i = j := by
  have h1 : (bs.map Block.id)[i]? = some b.id := by rw [List.getElem?_map, hi]; rfl
  have h2 : (bs.map Block.id)[j]? = some b.id := by rw [List.getElem?_map, hj, e]; rfl
  obtain ⟨l1, e1⟩ := List.getElem?_eq_some_iff.1 h1
  obtain ⟨l2, e2⟩ := List.getElem?_eq_some_iff.1 h2
  exact (h.getElem_inj_iff).1 (by rw [e1, e2])

/-- What an allocation does, in a state with the invariant. -/
private theorem alloc_cases {s : ASt} (hi : Inv s) {n : Nat} (hn : n ≤ 2 ^ 62) {a' : Arena} {c : Chunk}
    (h : alloc s.a n = .ok (a', c)) :
    ∃ b, s.a.blocks[s.a.cur]? = some b ∧
    (b.size < b.used + alignUp n ∧
      a' = { s.a with
        blocks := s.a.blocks.take (s.a.cur + 1) ++ [⟨s.a.made, max s.a.dflt (alignUp n), alignUp n⟩]
        cur := s.a.cur + 1
        made := s.a.made + 1 } ∧ c = ⟨s.a.made, 0, alignUp n⟩ ∨
     b.used + alignUp n ≤ b.size ∧
      a' = { s.a with blocks := s.a.blocks.set s.a.cur { b with used := b.used + alignUp n } } ∧
      c = ⟨b.id, b.used, alignUp n⟩) := by
  obtain ⟨h1, h2, h3⟩ := align_ok hn
  obtain ⟨b, hb⟩ : ∃ b, s.a.blocks[s.a.cur]? = some b := ⟨_, List.getElem?_eq_getElem hi.cur⟩
  have hbs := hi.siz b (List.mem_of_getElem? hb)
  have hm : (b.used + alignUp n) % 2 ^ 64 = b.used + alignUp n := Nat.mod_eq_of_lt (by omega)
  have hx : (if s.a.dflt < alignUp n then alignUp n else s.a.dflt) = max s.a.dflt (alignUp n) := by
    split <;> omega
  refine ⟨b, hb, ?_⟩
  rw [alloc, if_neg (by rw [hi.des]; simp)] at h
  simp only [hb, hm, hx] at h
  by_cases hc : b.size < b.used + alignUp n
  · rw [if_pos hc] at h
    cases h
    exact .inl ⟨hc, rfl, rfl⟩
  · rw [if_neg hc] at h
    cases h
    exact .inr ⟨by omega, rfl, rfl⟩

private theorem inv_alloc {s : ASt} (hi : Inv s) {n : Nat} (hn : n ≤ 2 ^ 62) {a' : Arena} {c : Chunk}
    (h : alloc s.a n = .ok (a', c)) : Inv ⟨a', clear s.m c, c :: s.live, s.marks⟩ := by
  obtain ⟨n1, n2, n3⟩ := align_ok hn
  obtain ⟨b, hb, h | h⟩ := alloc_cases hi hn h
  · obtain ⟨hc, rfl, rfl⟩ := h
    have hlen : (s.a.blocks.take (s.a.cur + 1)).length = s.a.cur + 1 := by
      rw [List.length_take]; have := hi.cur; omega
    have hget : ∀ j, j ≤ s.a.cur → (s.a.blocks.take (s.a.cur + 1) ++
        [(⟨s.a.made, max s.a.dflt (alignUp n), alignUp n⟩ : Block)])[j]? = s.a.blocks[j]? := by
      intro j hj
      rw [List.getElem?_append_left (by omega), List.getElem?_take, if_pos (by omega)]
    have hag : Agree s.a.cur s.a.blocks (s.a.blocks.take (s.a.cur + 1) ++
        [⟨s.a.made, max s.a.dflt (alignUp n), alignUp n⟩]) := by
      refine ⟨?_, b, b, hb, by rw [hget _ (Nat.le_refl _)]; exact hb, rfl, rfl⟩
      rw [List.take_append_of_le_length (by omega), List.take_take]
      congr 1
      omega
    constructor
    · exact hi.des
    · exact hi.dfl
    · show s.a.cur + 1 < (_ ++ _ : List Block).length
      rw [List.length_append, hlen]; simp
    · show ((_ ++ _ : List Block).map Block.id).Nodup
      rw [List.map_append, List.nodup_append]
      refine ⟨?_, by simp, ?_⟩
      · rw [List.map_take]; exact hi.nod.sublist (List.take_sublist _ _)
      · intro x hx y hy
        rw [List.map_cons, List.map_nil, List.mem_singleton] at hy
        obtain ⟨d, hd, rfl⟩ := List.mem_map.1 hx
        have := hi.mad d (List.mem_of_mem_take hd)
        rw [hy]
        show d.id ≠ s.a.made
        omega
    · intro x hx
      rcases List.mem_append.1 hx with hx | hx
      · have := hi.mad x (List.mem_of_mem_take hx)
        show x.id < s.a.made + 1
        omega
      · rw [List.mem_singleton] at hx
        subst hx
        show s.a.made < s.a.made + 1
        omega
    · intro x hx
      rcases List.mem_append.1 hx with hx | hx
      · exact hi.siz x (List.mem_of_mem_take hx)
      · rw [List.mem_singleton] at hx
        subst hx
        have := hi.dfl
        show alignUp n ≤ max s.a.dflt (alignUp n) ∧ max s.a.dflt (alignUp n) ≤ 2 ^ 62 ∧ alignUp n % 8 = 0
        omega
    · intro j d hj hd
      exfalso
      have := (List.getElem?_eq_some_iff.1 hd).1
      have hj' : s.a.cur + 1 < j := hj
      have e : (s.a.blocks.take (s.a.cur + 1) ++
        [(⟨s.a.made, max s.a.dflt (alignUp n), alignUp n⟩ : Block)]).length = s.a.cur + 2 := by
        rw [List.length_append, hlen]; rfl
      have : j < (s.a.blocks.take (s.a.cur + 1) ++
        [(⟨s.a.made, max s.a.dflt (alignUp n), alignUp n⟩ : Block)]).length := this
      omega
    · intro x hx
      rcases List.mem_cons.1 hx with rfl | hx
      · refine ⟨rfl, s.a.cur + 1, ⟨s.a.made, max s.a.dflt (alignUp n), alignUp n⟩, Nat.le_refl _, ?_, rfl, ?_⟩
        · show (_ ++ _ : List Block)[s.a.cur + 1]? = _
          rw [List.getElem?_append_right (by omega), hlen, Nat.sub_self]; rfl
        · show 0 + alignUp n ≤ alignUp n
          omega
      · obtain ⟨h1, j, d, h2, h3, h4, h5⟩ := hi.liv x hx
        refine ⟨h1, j, d, ?_, ?_, h4, h5⟩
        · show j ≤ s.a.cur + 1
          omega
        · show (_ ++ _ : List Block)[j]? = _
          rw [hget j h2]; exact h3
    · refine List.pairwise_cons.2 ⟨fun x hx => .inl ?_, hi.dis⟩
      obtain ⟨h1, j, d, h2, h3, h4, h5⟩ := hi.liv x hx
      have := hi.mad d (List.mem_of_getElem? h3)
      show s.a.made ≠ x.id
      omega
    · exact marks_frame hag (Nat.le_succ _) (List.sublist_cons_self _ _) hi.mks
  · obtain ⟨hc, rfl, rfl⟩ := h
    have hbs := hi.siz b (List.mem_of_getElem? hb)
    have hcu := hi.cur
    have hself : (s.a.blocks.set s.a.cur { b with used := b.used + alignUp n })[s.a.cur]? =
        some { b with used := b.used + alignUp n } := List.getElem?_set_self hcu
    have hag : Agree s.a.cur s.a.blocks (s.a.blocks.set s.a.cur { b with used := b.used + alignUp n }) := by
      refine ⟨?_, b, _, hb, hself, rfl, rfl⟩
      rw [List.take_set_of_le (Nat.le_refl _)]
    have hids : (s.a.blocks.set s.a.cur { b with used := b.used + alignUp n }).map Block.id =
        s.a.blocks.map Block.id := by
      rw [List.map_set]
      apply List.ext_getElem?
      intro k
      by_cases hk : s.a.cur = k
      · subst hk
        rw [List.getElem?_set_self (by simpa using hcu), List.getElem?_map, hb]; rfl
      · rw [List.getElem?_set_ne hk]
    constructor
    · exact hi.des
    · exact hi.dfl
    · show s.a.cur < (s.a.blocks.set _ _).length
      rw [List.length_set]; exact hcu
    · show ((s.a.blocks.set _ _).map Block.id).Nodup
      rw [hids]; exact hi.nod
    · intro x hx
      rcases List.mem_or_eq_of_mem_set hx with hx | rfl
      · exact hi.mad x hx
      · exact hi.mad b (List.mem_of_getElem? hb)
    · intro x hx
      rcases List.mem_or_eq_of_mem_set hx with hx | rfl
      · exact hi.siz x hx
      · show b.used + alignUp n ≤ b.size ∧ b.size ≤ 2 ^ 62 ∧ (b.used + alignUp n) % 8 = 0
        omega
    · intro j d hj hd
      have hd' : (s.a.blocks.set s.a.cur { b with used := b.used + alignUp n })[j]? = some d := hd
      rw [List.getElem?_set_ne (by have : s.a.cur < j := hj; omega)] at hd'
      exact hi.aft j d hj hd'
    · intro x hx
      rcases List.mem_cons.1 hx with rfl | hx
      · exact ⟨hbs.2.2, s.a.cur, _, Nat.le_refl _, hself, rfl, Nat.le_refl _⟩
      · obtain ⟨h1, j, d, h2, h3, h4, h5⟩ := hi.liv x hx
        by_cases e : j = s.a.cur
        · subst e
          rw [hb] at h3
          cases h3
          refine ⟨h1, s.a.cur, _, Nat.le_refl _, hself, h4, ?_⟩
          show x.off + x.size ≤ b.used + alignUp n
          omega
        · refine ⟨h1, j, d, h2, ?_, h4, h5⟩
          show (s.a.blocks.set s.a.cur _)[j]? = _
          rw [List.getElem?_set_ne (fun x => e x.symm)]; exact h3
    · refine List.pairwise_cons.2 ⟨fun x hx => ?_, hi.dis⟩
      obtain ⟨h1, j, d, h2, h3, h4, h5⟩ := hi.liv x hx
      by_cases e : b.id = x.id
      · have := nodup_inj hi.nod hb h3 (by rw [e, h4])
        subst this
        rw [hb] at h3
        cases h3
        exact .inr (.inr h5)
      · exact .inl e
    · exact marks_frame hag (Nat.le_refl _) (List.sublist_cons_self _ _) hi.mks

private theorem sum_zero {l : List Block} (h : ∀ b ∈ l, b.used = 0) : (l.map Block.used).sum = 0 := by
  induction l with
  | nil => rfl
  | cons x r ih =>
    rw [List.map_cons, List.sum_cons, h x (by simp), ih (fun b hb => h b (List.mem_cons_of_mem _ hb))]

private theorem split_at {bs : List Block} {i : Nat} {b : Block} (h : bs[i]? = some b) :
    bs = bs.take i ++ b :: bs.drop (i + 1) := by
  obtain ⟨hl, e⟩ := List.getElem?_eq_some_iff.1 h
  rw [← e, List.getElem_cons_drop, List.take_append_drop]

private theorem inv_save {s : ASt} (hi : Inv s) :
    Inv { s with marks := (save s.a, s.live, usage s.a) :: s.marks } := by
  obtain ⟨b, hb⟩ : ∃ b, s.a.blocks[s.a.cur]? = some b := ⟨_, List.getElem?_eq_getElem hi.cur⟩
  have hbs := hi.siz b (List.mem_of_getElem? hb)
  refine ⟨hi.des, hi.dfl, hi.cur, hi.nod, hi.mad, hi.siz, hi.aft, hi.liv, hi.dis, ?_⟩
  refine ⟨s.a.cur, b.used, b, by rw [save, hb]; rfl, Nat.le_refl _, hb, hbs.1, hbs.2.2, List.Sublist.refl _, ?_, ?_, ?_⟩
  · intro c hc
    obtain ⟨h1, j, d, h2, h3, h4, h5⟩ := hi.liv c hc
    by_cases e : j = s.a.cur
    · subst e
      rw [hb] at h3
      cases h3
      exact ⟨_, b, hb, h4, .inr ⟨rfl, h5⟩⟩
    · exact ⟨j, d, h3, h4, .inl ⟨by omega, h5⟩⟩
  · have hz : ((s.a.blocks.drop (s.a.cur + 1)).map Block.used).sum = 0 := by
      apply sum_zero
      intro d hd
      obtain ⟨k, hk⟩ := List.mem_iff_getElem?.1 hd
      rw [List.getElem?_drop] at hk
      exact hi.aft _ d (by omega) hk
    show (s.a.blocks.map Block.used).sum = ((s.a.blocks.take s.a.cur).map Block.used).sum + b.used
    conv_lhs => rw [split_at hb]
    rw [List.map_append, List.sum_append, List.map_cons, List.sum_cons, hz]
    omega
  · exact hi.mks

/-- The invariant after the end of a scope, and the bytes in use are those at its beginning. -/
private theorem inv_restore {s : ASt} (hi : Inv s) {mk : Mark} {l : List Chunk} {u : Nat}
    {ms : List (Mark × List Chunk × Nat)} (h : s.marks = (mk, l, u) :: ms) :
    Inv ⟨restore s.a mk, s.m, l, ms⟩ ∧ usage (restore s.a mk) = u ∧ l.Sublist s.live := by
  have hm := hi.mks
  rw [h] at hm
  obtain ⟨i, u0, b, rfl, h2, h3, h4, h5, h6, h7, h8, h9⟩ := hm
  have hl : i < s.a.blocks.length := (List.getElem?_eq_some_iff.1 h3).1
  have hlen : (s.a.blocks.take i).length = i := by rw [List.length_take]; omega
  have e : restore s.a (some (i, u0)) = { s.a with
      blocks := s.a.blocks.take i ++ { b with used := u0 } ::
        (s.a.blocks.drop (i + 1)).map fun b => { b with used := 0 }
      cur := i } := by rw [restore]; simp only [h3]
  rw [e]
  have hself : (s.a.blocks.take i ++ { b with used := u0 } ::
        (s.a.blocks.drop (i + 1)).map fun b => { b with used := 0 })[i]? = some { b with used := u0 } := by
    rw [List.getElem?_append_right (by omega), hlen, Nat.sub_self]; rfl
  have hlow : ∀ j, j < i → (s.a.blocks.take i ++ { b with used := u0 } ::
        (s.a.blocks.drop (i + 1)).map fun b => { b with used := 0 })[j]? = s.a.blocks[j]? := by
    intro j hj
    rw [List.getElem?_append_left (by omega), List.getElem?_take, if_pos hj]
  have hmem : ∀ x ∈ (s.a.blocks.take i ++ { b with used := u0 } ::
        (s.a.blocks.drop (i + 1)).map fun b => { b with used := 0 }),
      x ∈ s.a.blocks ∨ x = { b with used := u0 } ∨ ∃ d ∈ s.a.blocks, x = { d with used := 0 } := by
    intro x hx
    rcases List.mem_append.1 hx with hx | hx
    · exact .inl (List.mem_of_mem_take hx)
    · rcases List.mem_cons.1 hx with rfl | hx
      · exact .inr (.inl rfl)
      · obtain ⟨d, hd, rfl⟩ := List.mem_map.1 hx
        exact .inr (.inr ⟨d, List.mem_of_mem_drop hd, rfl⟩)
  have hbs := hi.siz b (List.mem_of_getElem? h3)
  have hag : Agree i s.a.blocks (s.a.blocks.take i ++ { b with used := u0 } ::
        (s.a.blocks.drop (i + 1)).map fun b => { b with used := 0 }) := by
    refine ⟨?_, b, _, h3, hself, rfl, rfl⟩
    rw [List.take_append_of_le_length (by omega), List.take_take, Nat.min_self]
  have hids : List.map Block.id (s.a.blocks.take i ++ { b with used := u0 } ::
        (s.a.blocks.drop (i + 1)).map fun b => { b with used := 0 }) = s.a.blocks.map Block.id := by
    conv_rhs => rw [split_at h3]
    simp [Function.comp_def]
  refine ⟨?_, ?_, h6⟩
  · constructor
    · exact hi.des
    · exact hi.dfl
    · show i < (_ ++ _ :: _ : List Block).length
      rw [List.length_append, hlen, List.length_cons]; omega
    · show (List.map Block.id (_ ++ _ :: _)).Nodup
      rw [hids]; exact hi.nod
    · intro x hx
      rcases hmem x hx with hx | rfl | ⟨d, hd, rfl⟩
      · exact hi.mad x hx
      · exact hi.mad b (List.mem_of_getElem? h3)
      · exact hi.mad d hd
    · intro x hx
      rcases hmem x hx with hx | rfl | ⟨d, hd, rfl⟩
      · exact hi.siz x hx
      · exact ⟨h4, hbs.2.1, h5⟩
      · exact ⟨Nat.zero_le _, (hi.siz d hd).2.1, rfl⟩
    · intro j d hj hd
      have hj : i < j := hj
      have hd : (s.a.blocks.take i ++ { b with used := u0 } ::
        (s.a.blocks.drop (i + 1)).map fun b => { b with used := 0 })[j]? = some d := hd
      rw [List.getElem?_append_right (by omega), hlen] at hd
      obtain ⟨k, hk⟩ : ∃ k, j - i = k + 1 := ⟨j - i - 1, by omega⟩
      rw [hk, List.getElem?_cons_succ, List.getElem?_map] at hd
      cases hx : (s.a.blocks.drop (i + 1))[k]? with
      | none => rw [hx] at hd; cases hd
      | some y => rw [hx] at hd; cases hd; rfl
    · intro c hc
      refine ⟨(hi.liv c (h6.subset hc)).1, ?_⟩
      obtain ⟨j, d, c1, c2, c3⟩ := h7 c hc
      rcases c3 with ⟨c3, c4⟩ | ⟨c3, c4⟩
      · refine ⟨j, d, ?_, ?_, c2, c4⟩
        · show j ≤ i
          omega
        · show (_ ++ _ :: _ : List Block)[j]? = _
          rw [hlow j c3]; exact c1
      · subst c3
        rw [h3] at c1
        cases c1
        exact ⟨j, _, Nat.le_refl _, hself, c2, c4⟩
    · exact hi.dis.sublist h6
    · exact marks_frame hag (Nat.le_refl _) (List.Sublist.refl _) h9
  · rw [usage, h8]
    show (List.map Block.used (_ ++ _ :: _)).sum = _
    rw [List.map_append, List.sum_append, List.map_cons, List.sum_cons, sum_zero (l := List.map _ _)]
    · rfl
    · intro x hx
      obtain ⟨d, -, rfl⟩ := List.mem_map.1 hx
      rfl

private theorem inv_reach {size : Nat} (hs : size ≤ 2 ^ 62) {s : ASt} (h : AReach size s) : Inv s := by
  induction h with
  | init m =>
    constructor
    · rfl
    · exact hs
    · show 0 < 1
      omega
    · show ([0] : List Nat).Nodup
      simp
    · intro b hb
      have hb : b ∈ [(⟨0, size, 0⟩ : Block)] := hb
      rw [List.mem_singleton] at hb
      subst hb
      show 0 < 1
      omega
    · intro b hb
      have hb : b ∈ [(⟨0, size, 0⟩ : Block)] := hb
      rw [List.mem_singleton] at hb
      subst hb
      exact ⟨Nat.zero_le _, hs, rfl⟩
    · intro j b hj hb
      have hj : 0 < j := hj
      have hb : [(⟨0, size, 0⟩ : Block)][j]? = some b := hb
      obtain ⟨k, rfl⟩ : ∃ k, j = k + 1 := ⟨j - 1, by omega⟩
      cases hb
    · intro c hc; cases hc
    · exact List.Pairwise.nil
    · trivial
  | @step s s' _ hst hi =>
    cases hst with
    | alloc n a' c hn ha => exact inv_alloc hi hn ha
    | write c k v _ _ => exact ⟨hi.des, hi.dfl, hi.cur, hi.nod, hi.mad, hi.siz, hi.aft, hi.liv, hi.dis, hi.mks⟩
    | save => exact inv_save hi
    | restore mk l u ms hm => exact (inv_restore hi hm).1
    | reset hm =>
      have hmem : ∀ x ∈ (reset s.a).blocks, ∃ d ∈ s.a.blocks, x = { d with used := 0 } := by
        intro x hx
        obtain ⟨d, hd, rfl⟩ := List.mem_map.1 hx
        exact ⟨d, hd, rfl⟩
      have hids : (reset s.a).blocks.map Block.id = s.a.blocks.map Block.id := by
        rw [reset]; simp [Function.comp_def]
      constructor
      · exact hi.des
      · exact hi.dfl
      · show 0 < (List.map _ _).length
        have := hi.cur
        rw [List.length_map]; omega
      · rw [hids]; exact hi.nod
      · intro x hx
        obtain ⟨d, hd, rfl⟩ := hmem x hx
        exact hi.mad d hd
      · intro x hx
        obtain ⟨d, hd, rfl⟩ := hmem x hx
        exact ⟨Nat.zero_le _, (hi.siz d hd).2.1, rfl⟩
      · intro j x hj hx
        obtain ⟨d, hd, rfl⟩ := hmem x (List.mem_of_getElem? hx)
        rfl
      · intro c hc; cases hc
      · exact List.Pairwise.nil
      · trivial

/-- In every state the live allocations are pairwise disjoint, start at multiples of 8, and lie inside the
used part of a block of the chain; the blocks are different. -/
theorem C46_disjoint {size : Nat} (hs : size ≤ 2 ^ 62) {s : ASt} (h : AReach size s) :
    s.live.Pairwise Disjoint' ∧ (s.a.blocks.map Block.id).Nodup ∧
    ∀ c ∈ s.live, c.off % 8 = 0 ∧ ∃ b ∈ s.a.blocks, b.id = c.id ∧ c.off + c.size ≤ b.used ∧ b.used ≤ b.size := by
  have hi := inv_reach hs h
  refine ⟨hi.dis, hi.nod, fun c hc => ?_⟩
  obtain ⟨h1, j, b, -, h3, h4, h5⟩ := hi.liv c hc
  exact ⟨h1, b, List.mem_of_getElem? h3, h4, h5, (hi.siz b (List.mem_of_getElem? h3)).1⟩

/-- An allocation succeeds, has the room asked for, and is zero; the live allocations keep their bytes. -/
theorem C46_alloc {size : Nat} (hs : size ≤ 2 ^ 62) {s : ASt} (h : AReach size s) {n : Nat} (hn : n ≤ 2 ^ 62) :
    ∃ a' c, alloc s.a n = .ok (a', c) ∧ n ≤ c.size ∧
      (∀ k, c.off ≤ k → k < c.off + c.size → clear s.m c c.id k = 0) ∧
      ∀ d ∈ s.live, Disjoint' c d ∧
        ∀ k, d.off ≤ k → k < d.off + d.size → clear s.m c d.id k = s.m d.id k := by
  have hi := inv_reach hs h
  obtain ⟨b, hb⟩ : ∃ b, s.a.blocks[s.a.cur]? = some b := ⟨_, List.getElem?_eq_getElem hi.cur⟩
  have hx : ∃ a' c, alloc s.a n = .ok (a', c) := by
    rw [alloc, hi.des]
    simp only [Bool.false_eq_true, if_false, hb]
    split
    · exact ⟨_, _, rfl⟩
    · exact ⟨_, _, rfl⟩
  obtain ⟨a', c, hx⟩ := hx
  have hd := (List.pairwise_cons.1 (inv_alloc hi hn hx).dis).1
  refine ⟨a', c, hx, ?_, fun k h1 h2 => by rw [clear, if_pos ⟨rfl, h1, h2⟩], fun d hd' => ⟨hd d hd', ?_⟩⟩
  · obtain ⟨b, -, ⟨-, -, rfl⟩ | ⟨-, -, rfl⟩⟩ := alloc_cases hi hn hx
    · exact (align_ok hn).1
    · exact (align_ok hn).1
  · intro k h1 h2
    rw [clear, if_neg]
    rintro ⟨e1, e2, e3⟩
    rcases hd d hd' with h | h | h
    · exact h e1.symm
    · omega
    · omega

/-- The end of a scope leaves exactly the allocations that were live at its beginning, and the bytes in use
are as many as then. -/
theorem C46_scope {size : Nat} (hs : size ≤ 2 ^ 62) {s : ASt} (h : AReach size s) {mk : Mark} {l : List Chunk}
    {u : Nat} {ms : List (Mark × List Chunk × Nat)} (hm : s.marks = (mk, l, u) :: ms) :
    l.Sublist s.live ∧ usage (restore s.a mk) = u ∧ AReach size ⟨restore s.a mk, s.m, l, ms⟩ := by
  have := inv_restore (inv_reach hs h) hm
  exact ⟨this.2.2, this.2.1, .step h (.restore mk l u ms hm)⟩

/-- Writing inside a live allocation changes no other. -/
theorem C46_write_keeps {size : Nat} (hs : size ≤ 2 ^ 62) {s : ASt} (h : AReach size s) {c d : Chunk}
    (hc : c ∈ s.live) (hd : d ∈ s.live) (hne : c ≠ d) {k j : Nat} (hk : k < c.size) (hj : j < d.size) (v : BitVec 8) :
    (fun i x => if i = c.id ∧ x = c.off + k then v else s.m i x) d.id (d.off + j) = s.m d.id (d.off + j) := by
  have hp := (inv_reach hs h).dis
  have hD : Disjoint' c d := by
    have sym : ∀ {x y : Chunk}, Disjoint' x y → Disjoint' y x := by
      intro x y h
      rcases h with h | h | h
      · exact .inl fun e => h e.symm
      · exact .inr (.inr h)
      · exact .inr (.inl h)
    have all : ∀ l : List Chunk, l.Pairwise Disjoint' → c ∈ l → d ∈ l → Disjoint' c d := by
      intro l
      induction l with
      | nil => intro _ h _; cases h
      | cons x r ih =>
        intro hp h1 h2
        rw [List.pairwise_cons] at hp
        rcases List.mem_cons.1 h1 with e1 | h1 <;> rcases List.mem_cons.1 h2 with e2 | h2
        · exact absurd (e1.trans e2.symm) hne
        · rw [e1]; exact hp.1 d h2
        · rw [e2]; exact sym (hp.1 c h1)
        · exact ih hp.2 h1 h2
    exact all _ hp hc hd
  show (if d.id = c.id ∧ d.off + j = c.off + k then v else _) = _
  rw [if_neg]
  rintro ⟨e1, e2⟩
  rcases hD with h | h | h
  · exact h e1.symm
  · omega
  · omega

example : alloc (create 16) 5 = .ok (⟨16, [⟨0, 16, 8⟩], 0, 1, false⟩, ⟨0, 0, 8⟩) := by decide +kernel
example : alloc ⟨16, [⟨0, 16, 8⟩], 0, 1, false⟩ 9 =
    .ok (⟨16, [⟨0, 16, 8⟩, ⟨1, 16, 16⟩], 1, 2, false⟩, ⟨1, 0, 16⟩) := by decide +kernel

/-! ### C47 -/

/-- After an arena is destroyed, it stays so through resets and scopes; every allocation and every further
destroy panics; nothing is in use. -/
theorem C47_destroyed {a : Arena} {f : List Nat} {a' : Arena} (h : destroy a = .ok (a', f)) :
    (∀ n, alloc a' n = .panic "P0001") ∧ destroy a' = .panic "P0002" ∧ usage a' = 0 ∧
    reset a' = a' ∧ save a' = none ∧ (∀ mk, restore a' mk = a') := by
  rw [destroy] at h
  split at h
  · cases h
  · cases h
    refine ⟨fun n => rfl, rfl, rfl, rfl, rfl, fun mk => ?_⟩
    cases mk <;> rfl

/-- An arena in use can be destroyed, once. -/
theorem C47_once {size : Nat} (hs : size ≤ 2 ^ 62) {s : ASt} (h : AReach size s) :
    ∃ a', destroy s.a = .ok (a', s.a.blocks.map Block.id) ∧ a'.destroyed = true := by
  rw [destroy, (inv_reach hs h).des]
  exact ⟨_, rfl, rfl⟩

example : (destroy (create 16)) = .ok (⟨16, [], 0, 1, true⟩, [0]) := by decide

/-! ### C117 -/

/-- Destroying an arena frees every block made for it. -/
def C117_statement : Prop :=
  ∀ (size : Nat) (s : ASt) (a' : Arena) (f : List Nat), size ≤ 2 ^ 62 → AReach size s →
    destroy s.a = .ok (a', f) → ∀ i < s.a.made, i ∈ f

/-- An arena of 8 bytes: after `n + 1` rounds of two allocations of 8 bytes with a reset between them. -/
private theorem rounds (n : Nat) (m : Mem) :
    ∃ s, AReach 8 s ∧ s.marks = [] ∧ s.a = ⟨8, [⟨0, 8, 8⟩, ⟨n + 1, 8, 8⟩], 1, n + 2, false⟩ := by
  have go : ∀ (s : ASt) (k : Nat) (rest : List Block), AReach 8 s → s.marks = [] →
      s.a = ⟨8, ⟨0, 8, 0⟩ :: rest, 0, k + 1, false⟩ →
      ∃ s', AReach 8 s' ∧ s'.marks = [] ∧ s'.a = ⟨8, [⟨0, 8, 8⟩, ⟨k + 1, 8, 8⟩], 1, k + 2, false⟩ := by
    intro s k rest h1 h2 h3
    have e1 : alloc s.a 8 = .ok (⟨8, ⟨0, 8, 8⟩ :: rest, 0, k + 1, false⟩, ⟨0, 0, 8⟩) := by
      rw [h3]; rfl
    have r1 := AReach.step h1 (.alloc 8 _ _ (by decide) e1)
    have e2 : alloc (⟨8, ⟨0, 8, 8⟩ :: rest, 0, k + 1, false⟩ : Arena) 8 =
        .ok (⟨8, [⟨0, 8, 8⟩, ⟨k + 1, 8, 8⟩], 1, k + 2, false⟩, ⟨k + 1, 0, 8⟩) := by rfl
    exact ⟨_, .step r1 (.alloc 8 _ _ (by decide) e2), h2, rfl⟩
  induction n with
  | zero => exact go _ 0 [] (.init m) rfl rfl
  | succ n ih =>
    obtain ⟨s, h1, h2, h3⟩ := ih
    exact go _ (n + 1) [⟨n + 1, 8, 0⟩] (.step h1 (.reset h2)) rfl (by rw [h3]; rfl)

/-- Each further round of a loop that resets the arena and fills two blocks loses a block: after `n + 1`
rounds `n + 2` blocks were made, and destroying the arena frees two. -/
theorem C117_witness (n : Nat) : ∃ s a', AReach 8 s ∧ s.a.made = n + 2 ∧ destroy s.a = .ok (a', [0, n + 1]) := by
  obtain ⟨s, h1, -, h3⟩ := rounds n (fun _ _ => 0)
  exact ⟨s, _, h1, by rw [h3], by rw [h3]; rfl⟩

theorem C117_fails : ¬ C117_statement := fun h => by
  obtain ⟨s, a', h1, h2, h3⟩ := C117_witness 1
  have := h 8 s a' _ (by decide) h1 h3 1 (by omega)
  revert this
  decide

/-- A program that only allocates. -/
inductive AllocOnly (size : Nat) : Arena → Prop where
  | init : AllocOnly size (create size)
  | step {a a' : Arena} {c : Chunk} (n : Nat) : AllocOnly size a → alloc a n = .ok (a', c) → AllocOnly size a'

private theorem only_inv {size : Nat} {a : Arena} (h : AllocOnly size a) :
    a.blocks.map Block.id = List.range a.made ∧ a.cur + 1 = a.blocks.length ∧ a.blocks.length = a.made := by
  induction h with
  | init => exact ⟨rfl, rfl, rfl⟩
  | @step a a1 c n _ ha ih =>
    obtain ⟨i1, i2, i3⟩ := ih
    rw [alloc] at ha
    split at ha
    · cases ha
    · cases hb : a.blocks[a.cur]? with
      | none => simp only [hb] at ha; cases ha
      | some b =>
        simp only [hb] at ha
        split at ha
        · cases ha
          refine ⟨?_, ?_, ?_⟩
          · show List.map Block.id (_ ++ _) = List.range (a.made + 1)
            rw [i2, List.take_length, List.map_append, i1, List.range_succ]; rfl
          · show a.cur + 1 + 1 = (_ ++ _ : List Block).length
            rw [i2, List.take_length, List.length_append]; rfl
          · show (_ ++ _ : List Block).length = a.made + 1
            rw [i2, List.take_length, List.length_append, i3]; rfl
        · cases ha
          refine ⟨?_, ?_, ?_⟩
          · show List.map Block.id (a.blocks.set _ _) = _
            rw [← i1, List.map_set]
            apply List.ext_getElem?
            intro k
            by_cases hk : a.cur = k
            · subst hk
              rw [List.getElem?_set_self (by rw [List.length_map]; omega), List.getElem?_map, hb]; rfl
            · rw [List.getElem?_set_ne hk]
          · show a.cur + 1 = (a.blocks.set _ _).length
            rw [List.length_set]; exact i2
          · show (a.blocks.set _ _).length = a.made
            rw [List.length_set]; exact i3

/-- Every block is freed if the arena was neither reset nor used in scopes. Missing: resets and scopes. -/
theorem C117_partial {size : Nat} {a : Arena} (h : AllocOnly size a) {a' : Arena} {f : List Nat}
    (hd : destroy a = .ok (a', f)) : f = List.range a.made := by
  have key := only_inv h
  rw [destroy] at hd
  split at hd
  · cases hd
  · cases hd
    exact key.1

end Verif.Props
