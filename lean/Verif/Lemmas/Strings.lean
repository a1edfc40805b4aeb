import Verif.Model.Strings

/-! Scanning a string for a separator. -/
namespace Verif.Strings
open Verif Verif.Str

theorem memEq_eq {s sub : Str} {i : Nat} (h : i + sub.length ≤ s.length) :
    memEq s i sub = .ok (decide (sub <+: s.drop i)) := by
  rw [memEq, if_pos h]
  congr 1
  rw [Bool.eq_iff_iff, beq_iff_eq, decide_eq_true_eq, List.prefix_iff_eq_take]
  exact eq_comm

/-- The pieces of a string found by scanning it from the left. -/
inductive Scan (sep : Str) : Str → List Str → Prop
  | nil : Scan sep [] [[]]
  | hit {r ps} : Scan sep r ps → Scan sep (sep ++ r) ([] :: ps)
  | miss {c r p ps} : ¬ sep <+: c :: r → Scan sep r (p :: ps) → Scan sep (c :: r) ((c :: p) :: ps)

theorem scan_ne_nil {sep s : Str} {ps : List Str} (h : Scan sep s ps) : ps ≠ [] := by
  cases h <;> simp

theorem scan_exists {sep : Str} (hs : sep ≠ []) : ∀ (n : Nat) (s : Str), s.length ≤ n →
    ∃ p ps, Scan sep s (p :: ps) := by
  intro n
  induction n with
  | zero =>
    intro s h
    match s, h with
    | [], _ => exact ⟨[], [], .nil⟩
  | succ n ih =>
    intro s h
    match s, h with
    | [], _ => exact ⟨[], [], .nil⟩
    | c :: r, h =>
      by_cases hp : sep <+: c :: r
      · obtain ⟨t, ht⟩ := hp
        have hl := congrArg List.length ht
        have := List.length_pos_iff.mpr hs
        rw [List.length_append, List.length_cons] at hl
        rw [List.length_cons] at h
        obtain ⟨p, ps, hps⟩ := ih t (by omega)
        exact ⟨[], p :: ps, ht ▸ .hit hps⟩
      · rw [List.length_cons] at h
        obtain ⟨p, ps, hps⟩ := ih r (by omega)
        exact ⟨c :: p, ps, .miss hp hps⟩

theorem scan_inv {sep : Str} (hs : sep ≠ []) {t p : Str} {ps : List Str}
    (h : Scan sep t (p :: ps)) :
    (sep <+: t → p = [] ∧ Scan sep (t.drop sep.length) ps) ∧
    (¬ sep <+: t → (t = [] ∧ p = [] ∧ ps = []) ∨
      ∃ c r p', t = c :: r ∧ p = c :: p' ∧ Scan sep r (p' :: ps)) := by
  cases h with
  | nil =>
    refine ⟨fun hp => ?_, fun _ => Or.inl ⟨rfl, rfl, rfl⟩⟩
    exact absurd (List.prefix_nil.mp hp) hs
  | hit h =>
    refine ⟨fun _ => ⟨rfl, ?_⟩, fun hn => absurd (List.prefix_append _ _) hn⟩
    rw [List.drop_left]
    exact h
  | miss hn h =>
    exact ⟨fun hp => absurd hp hn, fun _ => Or.inr ⟨_, _, _, rfl, rfl, h⟩⟩

theorem scan_short {sep : Str} (hs : sep ≠ []) : ∀ {t p : Str} {ps : List Str},
    t.length < sep.length → Scan sep t (p :: ps) → p = t ∧ ps = [] := by
  intro t
  induction t with
  | nil =>
    intro p ps hl h
    rcases (scan_inv hs h).2 (fun hp => hs (List.prefix_nil.mp hp)) with ⟨_, h1, h2⟩ | ⟨_, _, _, h, _⟩
    · exact ⟨h1, h2⟩
    · simp at h
  | cons c r ih =>
    intro p ps hl h
    have hn : ¬ sep <+: c :: r := fun hp => by
      have := hp.length_le
      omega
    rcases (scan_inv hs h).2 hn with ⟨h0, _⟩ | ⟨c', r', p', h1, h2, h3⟩
    · simp at h0
    · cases h1
      rw [List.length_cons] at hl
      obtain ⟨h4, h5⟩ := ih (by omega) h3
      exact ⟨by rw [h2, h4], h5⟩

theorem drop_split (s : Str) {a b : Nat} (h : a ≤ b) :
    s.drop a = (s.drop a).take (b - a) ++ s.drop b := by
  have e : s.drop b = (s.drop a).drop (b - a) := by
    rw [List.drop_drop]; congr 1; omega
  rw [e, List.take_append_drop]

theorem take_succ_drop (s : Str) {a i : Nat} (h : a ≤ i) (hi : i < s.length) :
    (s.drop a).take (i + 1 - a) = (s.drop a).take (i - a) ++ [s[i]] := by
  rw [show i + 1 - a = (i - a) + 1 by omega, List.take_succ_eq_append_getElem
    (by rw [List.length_drop]; omega)]
  congr 2
  rw [List.getElem_drop]
  congr 1
  omega

theorem splitLoop_eq (s sep : Str) (hs : sep ≠ []) (n : Nat) :
    ∀ (start i : Nat) (parts : List Str) (p : Str) (ps : List Str), start ≤ i → i ≤ s.length →
      s.length - i < n → Scan sep (s.drop i) (p :: ps) →
      splitLoop s sep n start i parts =
        .ok (some (parts ++ ((s.drop start).take (i - start) ++ p) :: ps)) := by
  have hpos := List.length_pos_iff.mpr hs
  induction n with
  | zero => intro _ _ _ _ _ _ _ h; omega
  | succ n ih =>
    intro start i parts p ps hsi his hn h
    rw [splitLoop]
    by_cases hin : i + sep.length ≤ s.length
    · rw [if_pos hin, memEq_eq hin, Outcome.bind_ok]
      by_cases hp : sep <+: s.drop i
      · obtain ⟨h1, h2⟩ := (scan_inv hs h).1 hp
        rw [List.drop_drop] at h2
        obtain ⟨q, qs, rfl⟩ : ∃ q qs, ps = q :: qs := by
          match ps, scan_ne_nil h2 with
          | q :: qs, _ => exact ⟨q, qs, rfl⟩
        rw [decide_eq_true hp, if_pos rfl]
        simp only
        rw [show i + (sep.length - 1) + 1 = i + sep.length by omega,
          ih (i + sep.length) (i + sep.length) _ q qs (Nat.le_refl _) hin (by omega) h2, h1]
        simp
      · rw [decide_eq_false hp, if_neg (by decide)]
        have hlt : i < s.length := by omega
        rcases (scan_inv hs h).2 hp with ⟨h0, _⟩ | ⟨c, r, p', h1, h2, h3⟩
        · have := congrArg List.length h0
          rw [List.length_drop] at this
          simp at this; omega
        · rw [List.drop_eq_getElem_cons hlt] at h1
          cases h1
          rw [ih start (i + 1) parts p' ps (by omega) (by omega) (by omega) h3, h2,
            take_succ_drop s hsi hlt]
          simp
    · rw [if_neg hin]
      obtain ⟨h1, h2⟩ := scan_short hs (by rw [List.length_drop]; omega) h
      rw [h1, h2, ← drop_split s hsi]

theorem countLoop_eq (s sep : Str) (hs : sep ≠ []) (n : Nat) :
    ∀ (i c : Nat) (p : Str) (ps : List Str), i ≤ s.length → s.length - i < n →
      Scan sep (s.drop i) (p :: ps) → countLoop s sep n i c = .ok (some (c + ps.length)) := by
  have hpos := List.length_pos_iff.mpr hs
  induction n with
  | zero => intro _ _ _ _ _ h; omega
  | succ n ih =>
    intro i c p ps his hn h
    rw [countLoop]
    by_cases hin : i + sep.length ≤ s.length
    · rw [if_pos hin, memEq_eq hin, Outcome.bind_ok]
      by_cases hp : sep <+: s.drop i
      · obtain ⟨h1, h2⟩ := (scan_inv hs h).1 hp
        rw [List.drop_drop] at h2
        obtain ⟨q, qs, rfl⟩ : ∃ q qs, ps = q :: qs := by
          match ps, scan_ne_nil h2 with
          | q :: qs, _ => exact ⟨q, qs, rfl⟩
        rw [decide_eq_true hp, if_pos rfl, show i + (sep.length - 1) + 1 = i + sep.length by omega,
          ih (i + sep.length) _ q qs hin (by omega) h2, List.length_cons]
        congr 2; omega
      · rw [decide_eq_false hp, if_neg (by decide)]
        have hlt : i < s.length := by omega
        rcases (scan_inv hs h).2 hp with ⟨h0, _⟩ | ⟨d, r, p', h1, h2, h3⟩
        · have := congrArg List.length h0
          rw [List.length_drop] at this
          simp at this; omega
        · rw [List.drop_eq_getElem_cons hlt] at h1
          cases h1
          exact ih (i + 1) c p' ps (by omega) (by omega) h3
    · rw [if_neg hin]
      obtain ⟨h1, h2⟩ := scan_short hs (by rw [List.length_drop]; omega) h
      rw [h2]; rfl

/-- Pieces with `new` between them. -/
def glue (new : Str) : List Str → Str
  | [] => []
  | [p] => p
  | p :: q :: ps => p ++ new ++ glue new (q :: ps)

theorem glue_cons_cons (new : Str) (c : Byte) (p : Str) (ps : List Str) :
    glue new ((c :: p) :: ps) = c :: glue new (p :: ps) := by
  cases ps <;> rfl

theorem glue_nil_cons (new : Str) {ps : List Str} (h : ps ≠ []) :
    glue new ([] :: ps) = new ++ glue new ps := by
  cases ps with
  | nil => exact absurd rfl h
  | cons q ps => rw [glue, List.nil_append]

theorem replaceLoop_eq (cap : Nat) (s old new : Str) (hs : old ≠ []) (n : Nat) :
    ∀ (i : Nat) (out p : Str) (ps : List Str), i ≤ s.length → s.length - i < n →
      Scan old (s.drop i) (p :: ps) → out.length + (glue new (p :: ps)).length ≤ cap →
      replaceLoop cap s old new n i out = .ok (some (out ++ glue new (p :: ps))) := by
  have hpos := List.length_pos_iff.mpr hs
  induction n with
  | zero => intro _ _ _ _ _ h; omega
  | succ n ih =>
    intro i out p ps his hn h hcap
    rw [replaceLoop]
    by_cases hlt : i < s.length
    · rw [if_pos hlt]
      have hhit : hitAt s i old = .ok (decide (old <+: s.drop i)) := by
        rw [hitAt]
        by_cases hin : i + old.length ≤ s.length
        · rw [if_pos hin, memEq_eq hin]
        · rw [if_neg hin, decide_eq_false]
          intro hp
          have := hp.length_le
          rw [List.length_drop] at this
          omega
      rw [hhit, Outcome.bind_ok]
      by_cases hp : old <+: s.drop i
      · obtain ⟨h1, h2⟩ := (scan_inv hs h).1 hp
        have hle := hp.length_le
        rw [List.length_drop] at hle
        rw [List.drop_drop] at h2
        obtain ⟨q, qs, rfl⟩ : ∃ q qs, ps = q :: qs := by
          match ps, scan_ne_nil h2 with
          | q :: qs, _ => exact ⟨q, qs, rfl⟩
        rw [h1, glue_nil_cons new (by simp)] at hcap ⊢
        rw [List.length_append] at hcap
        rw [decide_eq_true hp, if_pos rfl, put, if_pos (by omega), Outcome.bind_ok,
          ih (i + old.length) _ q qs (by omega) (by omega) h2
            (by rw [List.length_append]; omega), List.append_assoc]
      · rw [decide_eq_false hp, if_neg (by decide)]
        rcases (scan_inv hs h).2 hp with ⟨h0, _⟩ | ⟨c, r, p', h1, h2, h3⟩
        · have := congrArg List.length h0
          rw [List.length_drop] at this
          simp at this; omega
        · have hr : r = s.drop (i + 1) := by
            rw [List.drop_eq_getElem_cons hlt] at h1
            cases h1; rfl
          rw [h2, glue_cons_cons, List.length_cons] at hcap
          rw [h1, h2, glue_cons_cons, List.take_succ_cons, List.take_zero, put, if_pos (by simp; omega), Outcome.bind_ok,
            ih (i + 1) _ p' ps (by omega) (by omega) (hr ▸ h3)
              (by rw [List.length_append]; simp; omega)]
          simp
    · rw [if_neg hlt]
      have hd : s.drop i = [] := List.drop_eq_nil_of_le (by omega)
      rw [hd] at h
      rcases (scan_inv hs h).2 (fun hp => hs (List.prefix_nil.mp hp)) with
        ⟨_, h1, h2⟩ | ⟨_, _, _, h, _⟩
      · rw [h1, h2, glue, List.append_nil]
      · simp at h

theorem glue_scan {sep s : Str} {ps : List Str} (h : Scan sep s ps) : glue sep ps = s := by
  induction h with
  | nil => rfl
  | hit h ih => rw [glue_nil_cons _ (scan_ne_nil h), ih]
  | miss _ _ ih => rw [glue_cons_cons, ih]

theorem glue_length (new : Str) (p : Str) (ps : List Str) :
    (glue new (p :: ps)).length = ((p :: ps).map List.length).sum + ps.length * new.length := by
  induction ps generalizing p with
  | nil => simp [glue]
  | cons q ps ih =>
    rw [glue, List.length_append, List.length_append, ih, List.length_cons, Nat.succ_mul]
    simp only [List.map_cons, List.sum_cons]
    omega

theorem joinTotal_eq (sep : Str) (arr : List Str) : joinTotal sep arr = (glue sep arr).length := by
  induction arr with
  | nil => rfl
  | cons s r ih =>
    cases r with
    | nil => rfl
    | cons t r => rw [joinTotal, ih, glue, List.length_append, List.length_append]

theorem joinLoop_eq (cap : Nat) (sep : Str) (r : List Str) : ∀ out : Str,
    out.length + (r.map fun s => sep.length + s.length).sum ≤ cap →
    joinLoop cap sep r out = .ok (out ++ (r.map fun s => sep ++ s).flatten) := by
  induction r with
  | nil => intro out _; simp [joinLoop]
  | cons s r ih =>
    intro out h
    rw [List.map_cons, List.sum_cons] at h
    rw [joinLoop, put, if_pos (by omega), Outcome.bind_ok, put,
      if_pos (by rw [List.length_append]; omega), Outcome.bind_ok,
      ih _ (by rw [List.length_append, List.length_append]; omega)]
    simp

theorem glue_flatten (sep s : Str) (r : List Str) :
    glue sep (s :: r) = s ++ (r.map fun t => sep ++ t).flatten := by
  induction r generalizing s with
  | nil => simp [glue]
  | cons t r ih => rw [glue, ih]; simp

theorem join_eq (arr : List Str) (sep : Str) (h : (glue sep arr).length ≤ int32Max) :
    join arr sep = .ok (glue sep arr) := by
  match arr with
  | [] => rfl
  | s :: r =>
    have hl : (glue sep (s :: r)).length = s.length + (r.map fun t => sep.length + t.length).sum := by
      rw [glue_flatten, List.length_append, List.length_flatten, List.map_map]
      congr 2
      refine List.map_congr_left fun t _ => ?_
      simp
    simp only [join]
    rw [joinTotal_eq, if_neg (by omega), put, if_pos (by rw [hl]; simp), Outcome.bind_ok,
      joinLoop_eq _ _ _ _ (by rw [hl]; simp), glue_flatten]
    simp

end Verif.Strings
