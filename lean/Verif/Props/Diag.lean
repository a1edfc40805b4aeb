import Verif.Model.Diag

/-!
# The compiler's output buffer and its diagnostics (C161-C166)
-/

namespace Verif.Props
open Verif Verif.Str Verif.Diag

/-! ## C161: the output buffer -/

/-- The text a call is to append. -/
def OpText : Op → Str
  | .str s => s
  | .bytes s => s
  | .fmt t => t
  | .char c => [c]
  | .indent d => List.replicate (4 * d).toNat 32

/-- Arguments as the code generator can pass them: texts are objects in memory, strings have no 0 bytes inside, and
depths are those of blocks. -/
def OpOk : Op → Prop
  | .str s => s.length < 2 ^ 63 ∧ 0 ∉ s
  | .bytes s => s.length < 2 ^ 63
  | .fmt t => t.length < 2 ^ 63
  | .char _ => True
  | .indent d => 0 ≤ d ∧ d < 2 ^ 29

/-- The buffer holds exactly the text, followed by a 0 byte, within its object. -/
def BufHolds (b : Buf) (t : Str) : Prop :=
  b.len = t.length ∧ b.data.take b.len = t ∧ b.data[b.len]? = some 0 ∧ b.cap = b.data.length

/-- Appending ends with "out of memory", or the buffer holds all the texts one after the other. -/
def BufRight (texts : Str) : R Buf → Prop
  | .ok b => BufHolds b texts
  | .exit => True
  | .ub => False

/-- **C161.** The buffer for generated code holds what was appended, in order, and nothing is written outside of it. -/
def C161_statement : Prop :=
  ∀ (m : Mem) (cap : Nat) (ops : List Op), m.avail < 2 ^ 63 → 1 ≤ cap → (∀ o ∈ ops, OpOk o) →
    BufRight (ops.flatMap OpText) ((create m cap).bind (runAll m ops))

/-- A formatted text of 2^31 bytes or more is left out without notice. -/
theorem C161_witness (t : Str) (ht : 2 ^ 31 ≤ t.length) :
    (create ⟨2 ^ 62, 0⟩ 1).bind (runAll ⟨2 ^ 62, 0⟩ [.fmt t, .char 66]) = .ok ⟨[66, 0], 1, 2⟩ := by
  have h : ∀ b, appendFormat ⟨2 ^ 62, 0⟩ b t = .ok b := fun b => if_pos ht
  have h1 : create ⟨2 ^ 62, 0⟩ 1 = .ok ⟨[0], 0, 1⟩ := by decide
  rw [h1]
  show (appendFormat _ _ t).bind _ = _
  rw [h]
  decide

theorem C161_fails : ¬ C161_statement := by
  intro h
  have := h ⟨2 ^ 62, 0⟩ 1 [.fmt (List.replicate (2 ^ 31) 65), .char 66] (by decide) (by decide) (by
    intro o ho
    rcases List.mem_cons.mp ho with rfl | ho
    · show (List.replicate (2 ^ 31) _).length < 2 ^ 63
      rw [List.length_replicate]; decide
    · rcases List.mem_cons.mp ho with rfl | ho
      · trivial
      · exact absurd ho List.not_mem_nil)
  rw [C161_witness _ (by rw [List.length_replicate]; exact Nat.le_refl _)] at this
  have h1 : (1 : Nat) = _ := this.1
  rw [List.flatMap_cons, List.length_append] at h1
  have : (OpText (.fmt (List.replicate (2 ^ 31) 65))).length = 2 ^ 31 := List.length_replicate
  rw [this] at h1
  omega

namespace Dg

theorem write_ok {d : Str} {pos : Nat} {s : Str} (h : pos + s.length ≤ d.length) :
    ∃ e, write d pos s = .ok e ∧ e.length = d.length ∧ (∀ n ≤ pos, e.take n = d.take n) ∧ e.take (pos + s.length) = d.take pos ++ s ∧
      (∀ n, pos + s.length ≤ n → e[n]? = d[n]?) := by
  refine ⟨d.take pos ++ s ++ d.drop (pos + s.length), if_pos h, ?_, ?_, ?_, ?_⟩
  · simp only [List.length_append, List.length_take, List.length_drop]; omega
  · intro n hn
    have hl : (d.take pos).length = pos := by simp only [List.length_take]; omega
    rw [List.append_assoc, List.take_append_of_le_length (by omega), List.take_take, Nat.min_eq_left hn]
  · have hl : (d.take pos ++ s).length = pos + s.length := by simp only [List.length_append, List.length_take]; omega
    rw [List.take_append_of_le_length (by omega), List.take_of_length_le (by omega)]
  · intro n hn
    have hl : (d.take pos ++ s).length = pos + s.length := by simp only [List.length_append, List.length_take]; omega
    rw [List.getElem?_append_right (by omega), hl, List.getElem?_drop]
    congr 1; omega

/-- What is kept between the calls. -/
structure Inv (m : Mem) (b : Buf) (t : Str) : Prop where
  cap : b.cap = b.data.length
  avail : b.cap ≤ m.avail
  room : b.len < b.cap
  len : b.len = t.length
  text : b.data.take b.len = t
  zero : b.data[b.len]? = some 0

inductive Good (m : Mem) (t : Str) : R Buf → Prop
  | ok {b} (h : Inv m b t) : Good m t (.ok b)
  | exit : Good m t .exit

theorem good_bind {m : Mem} {t u : Str} {x : R Buf} {f : Buf → R Buf} (hx : Good m t x) (hf : ∀ b, Inv m b t → Good m u (f b)) :
    Good m u (x.bind f) := by
  cases hx with
  | ok h => exact hf _ h
  | exit => exact .exit

/-- After growing there is room. -/
theorem grow_ok {m : Mem} {b : Buf} {t : Str} {n : Nat} (hm : m.avail < 2 ^ 63) (h : Inv m b t) (hn : n < 2 ^ 63) :
    grow m b n = .exit ∨ ∃ b', grow m b n = .ok b' ∧ b'.len = b.len ∧ b'.cap = b'.data.length ∧ b'.cap ≤ m.avail ∧ b.len + n + 1 ≤ b'.cap ∧
      b'.data.take b.len = t := by
  have hav := h.avail
  have hr := h.room
  have hc := h.cap
  have e1 : u64 (b.len + n + 1) = b.len + n + 1 := Nat.mod_eq_of_lt (by omega)
  have e2 : u64 (b.cap * 2) = b.cap * 2 := Nat.mod_eq_of_lt (by omega)
  unfold grow
  rw [e1, e2]
  by_cases hle : b.len + n + 1 ≤ b.cap
  · rw [if_pos hle]
    exact .inr ⟨b, rfl, rfl, hc, hav, hle, h.text⟩
  · rw [if_neg hle]
    have key : ∀ c, b.len + n + 1 ≤ c → b.cap < c → ((realloc m b.data c).bind fun d => R.ok { b with data := d, cap := c }) = .exit ∨
        ∃ b', ((realloc m b.data c).bind fun d => R.ok { b with data := d, cap := c }) = .ok b' ∧ b'.len = b.len ∧ b'.cap = b'.data.length ∧
          b'.cap ≤ m.avail ∧ b.len + n + 1 ≤ b'.cap ∧ b'.data.take b.len = t := by
      intro c hc1 hc2
      unfold realloc
      by_cases hca : c ≤ m.avail
      · rw [if_pos hca]
        refine .inr ⟨_, rfl, rfl, ?_, hca, hc1, ?_⟩
        · simp only [List.length_append, List.length_take, List.length_replicate]; omega
        · show (b.data.take c ++ _).take b.len = t
          rw [List.take_append_of_le_length (by simp only [List.length_take]; omega), List.take_take, Nat.min_eq_left (by omega)]
          exact h.text
      · rw [if_neg hca]; exact .inl rfl
    have hgt : b.cap < b.cap * 2 := by omega
    by_cases h2 : b.cap * 2 < b.len + n + 1
    · simp only [if_pos h2]
      exact key _ (Nat.le_refl _) (by omega)
    · simp only [if_neg h2]
      exact key _ (by omega) hgt

theorem write_both {m : Mem} {b : Buf} {t s : Str} (hb : b.cap = b.data.length) (ha : b.cap ≤ m.avail) (hr : b.len + s.length + 1 ≤ b.cap)
    (hl : b.len = t.length) (ht : b.data.take b.len = t) :
    ∃ d e, write b.data b.len s = .ok d ∧ write d (b.len + s.length) [0] = .ok e ∧
      Inv m { b with data := e, len := b.len + s.length } (t ++ s) := by
  obtain ⟨d, hd, hdl, -, hd2, -⟩ := write_ok (d := b.data) (pos := b.len) (s := s) (by omega)
  obtain ⟨e, he, hel, he1, he2, -⟩ := write_ok (d := d) (pos := b.len + s.length) (s := [0]) (by simp only [List.length_singleton]; omega)
  refine ⟨d, e, hd, he, ⟨?_, ha, ?_, ?_, ?_, ?_⟩⟩
  · show b.cap = e.length; omega
  · show b.len + s.length < b.cap; omega
  · show b.len + s.length = (t ++ s).length; rw [List.length_append]; omega
  · show e.take (b.len + s.length) = t ++ s
    rw [he1 _ (Nat.le_refl _), hd2, ht]
  · show e[b.len + s.length]? = some 0
    have : (e.take (b.len + s.length + 1))[b.len + s.length]? = some 0 := by
      rw [show b.len + s.length + 1 = b.len + s.length + [(0 : Byte)].length from rfl, he2, List.getElem?_append_right (by simp only [List.length_take]; omega)]
      have : b.len + s.length - (d.take (b.len + s.length)).length = 0 := by simp only [List.length_take]; omega
      rw [this]; rfl
    rw [List.getElem?_take] at this
    rw [if_pos (by omega)] at this
    exact this

theorem appendBytes_good {m : Mem} {b : Buf} {t s : Str} (hm : m.avail < 2 ^ 63) (h : Inv m b t) (hs : s.length < 2 ^ 63) :
    Good m (t ++ s) (appendBytes m b s) := by
  unfold appendBytes
  rcases grow_ok hm h hs with hg | ⟨b', hg, h1, h2, h3, h4, h5⟩
  · rw [hg]; exact .exit
  · rw [hg]
    obtain ⟨d, e, hd, he, hi⟩ := write_both (m := m) (s := s) h2 h3 (by omega) (h1.trans h.len) (by rw [h1]; exact h5)
    show Good m _ ((write b'.data b'.len s).bind _)
    rw [hd]
    show Good m _ ((write d (b'.len + s.length) [0]).bind _)
    rw [he]
    exact .ok hi

theorem appendChar_good {m : Mem} {b : Buf} {t : Str} {c : Byte} (hm : m.avail < 2 ^ 63) (h : Inv m b t) :
    Good m (t ++ [c]) (appendChar m b c) :=
  appendBytes_good (s := [c]) hm h (by show 1 < 2 ^ 63; decide)

theorem appendFormat_good {m : Mem} {b : Buf} {t s : Str} (hm : m.avail < 2 ^ 63) (h : Inv m b t) (hs : s.length < 2 ^ 31) :
    Good m (t ++ s) (appendFormat m b s) := by
  unfold appendFormat
  rw [if_neg (by omega)]
  rcases grow_ok hm h (n := s.length) (by omega) with hg | ⟨b', hg, h1, h2, h3, h4, h5⟩
  · rw [hg]; exact .exit
  · rw [hg]
    obtain ⟨e, he, hel, he1, he2, -⟩ := write_ok (d := b'.data) (pos := b'.len) (s := s ++ [0])
      (by simp only [List.length_append, List.length_singleton]; omega)
    show Good m _ ((write b'.data b'.len (s ++ [0])).bind _)
    rw [he]
    have e0 : (b'.data.take b'.len).length = b'.len := by simp only [List.length_take]; omega
    have e1 : b'.data.take b'.len = t := by rw [h1]; exact h5
    have e2 : t.length = b'.len := by rw [← e1]; exact e0
    rw [e1, List.length_append, List.length_singleton, ← List.append_assoc] at he2
    refine .ok ⟨?_, h3, ?_, ?_, ?_, ?_⟩
    · show b'.cap = e.length; omega
    · show b'.len + s.length < b'.cap; omega
    · show b'.len + s.length = (t ++ s).length; rw [List.length_append]; omega
    · show e.take (b'.len + s.length) = t ++ s
      have : (e.take (b'.len + (s.length + 1))).take (b'.len + s.length) = t ++ s := by
        rw [he2, List.take_append_of_le_length (by rw [List.length_append]; omega), List.take_of_length_le (by rw [List.length_append]; omega)]
      rw [List.take_take, Nat.min_eq_left (by omega)] at this
      exact this
    · show e[b'.len + s.length]? = some 0
      have : (e.take (b'.len + (s.length + 1)))[b'.len + s.length]? = some 0 := by
        rw [he2, List.getElem?_append_right (by rw [List.length_append]; omega)]
        have : b'.len + s.length - (t ++ s).length = 0 := by rw [List.length_append]; omega
        rw [this]; rfl
      rw [List.getElem?_take, if_pos (by omega)] at this
      exact this

theorem indentLoop_good {m : Mem} (hm : m.avail < 2 ^ 63) : ∀ (n : Nat) {b : Buf} {t : Str}, Inv m b t →
    Good m (t ++ List.replicate (4 * n) 32) (indentLoop m n b)
  | 0, b, t, h => by
    simp only [Nat.mul_zero, List.replicate_zero, List.append_nil]
    exact .ok h
  | n + 1, b, t, h => by
    refine good_bind (appendBytes_good hm h (s := List.replicate 4 32) (by decide)) ?_
    intro b' h'
    have := indentLoop_good hm n h'
    rw [List.append_assoc, List.replicate_append_replicate] at this
    rw [show 4 * (n + 1) = 4 + 4 * n by omega]
    exact this

theorem takeWhile_all : ∀ {s : Str}, 0 ∉ s → s.takeWhile (· != 0) = s
  | [], _ => rfl
  | c :: s, h => by
    have hc : (c != 0) = true := by
      rw [bne_iff_ne]; exact fun e => h (e ▸ List.mem_cons_self)
    rw [List.takeWhile_cons, if_pos hc, takeWhile_all fun hm => h (List.mem_cons_of_mem _ hm)]

def Short : Op → Prop
  | .fmt t => t.length < 2 ^ 31
  | _ => True

theorem op_good {m : Mem} {b : Buf} {t : Str} (hm : m.avail < 2 ^ 63) (h : Inv m b t) : ∀ {o : Op}, OpOk o → Short o →
    Good m (t ++ OpText o) (o.run m b)
  | .str s, ho, _ => by
    show Good m (t ++ s) (appendBytes m b (s.takeWhile (· != 0)))
    rw [takeWhile_all ho.2]
    exact appendBytes_good hm h ho.1
  | .bytes _, ho, _ => appendBytes_good hm h ho
  | .fmt _, _, hs => appendFormat_good hm h hs
  | .char _, _, _ => appendChar_good hm h
  | .indent d, ho, _ => by
    obtain ⟨h0, h1⟩ := ho
    show Good m (t ++ List.replicate (4 * d).toNat 32) (appendIndent m b d)
    unfold appendIndent
    simp only []
    rw [if_neg (by omega)]
    by_cases h2 : d * 4 < 65
    · rw [if_pos h2, if_neg (by omega), show d * 4 = 4 * d by omega]
      exact appendBytes_good hm h (by rw [List.length_replicate]; omega)
    · rw [if_neg h2, show (4 * d).toNat = 4 * d.toNat by omega]
      exact indentLoop_good hm _ h

theorem runAll_good {m : Mem} (hm : m.avail < 2 ^ 63) : ∀ {ops : List Op} {b : Buf} {t : Str}, Inv m b t → (∀ o ∈ ops, OpOk o) →
    (∀ o ∈ ops, Short o) → Good m (t ++ ops.flatMap OpText) (runAll m ops b)
  | [], b, t, h, _, _ => by
    rw [List.flatMap_nil, List.append_nil]; exact .ok h
  | o :: os, b, t, h, ho, hs => by
    rw [List.flatMap_cons, ← List.append_assoc]
    exact good_bind (op_good hm h (ho _ List.mem_cons_self) (hs _ List.mem_cons_self)) fun b' h' =>
      runAll_good hm h' (fun o h => ho o (List.mem_cons_of_mem _ h)) (fun o h => hs o (List.mem_cons_of_mem _ h))

end Dg

/-- **C161 (partial).** It holds if every formatted text has fewer than 2^31 bytes. -/
theorem C161_partial (m : Mem) (cap : Nat) (ops : List Op) (hm : m.avail < 2 ^ 63) (hc : 1 ≤ cap) (ho : ∀ o ∈ ops, OpOk o)
    (hs : ∀ t, .fmt t ∈ ops → t.length < 2 ^ 31) : BufRight (ops.flatMap OpText) ((create m cap).bind (runAll m ops)) := by
  have h0 : Dg.Good m [] (create m cap) := by
    unfold create
    by_cases ha : cap ≤ m.avail
    · rw [if_pos ha]
      obtain ⟨e, he, hel, he1, he2, -⟩ := Dg.write_ok (d := List.replicate cap m.junk) (pos := 0) (s := [0])
        (by rw [List.length_replicate, List.length_singleton]; omega)
      rw [he]
      refine .ok ⟨?_, ha, hc, rfl, rfl, ?_⟩
      · show cap = e.length
        rw [hel, List.length_replicate]
      · show e[0]? = some 0
        have : (e.take 1)[0]? = some 0 := by
          rw [show (1 : Nat) = 0 + [(0 : Byte)].length from rfl, he2]; rfl
        rw [List.getElem?_take, if_pos (by omega)] at this
        exact this
    · rw [if_neg ha]; exact .exit
  have := Dg.good_bind h0 fun b hb => Dg.runAll_good hm hb ho (by
    intro o h
    cases o with
    | fmt t => exact hs t h
    | _ => trivial)
  generalize hr : (create m cap).bind (runAll m ops) = r at *
  cases this with
  | ok h => exact ⟨h.len, h.text, h.zero, h.cap⟩
  | exit => trivial

example : (create ⟨1000, 7⟩ 2).bind (runAll ⟨1000, 7⟩ [.str [97, 98], .indent 1, .char 99, .fmt [100]]) =
    .ok ⟨[97, 98, 32, 32, 32, 32, 99, 100, 0, 7, 7, 7, 7, 7, 7, 7], 8, 16⟩ := by decide

/-! ## C162: errors stop the compilation -/

namespace Dg

theorem add_errors_pos (l : DList) (d : Diagnostic) : 0 < (l.add d).errors ↔ 0 < l.errors ∨ d.sev = .error := by
  unfold DList.add
  by_cases h : d.sev = .error ∧ l.errors ≥ 20
  · rw [if_pos h]
    exact ⟨.inl, fun _ => by omega⟩
  · rw [if_neg h]
    by_cases h1 : d.sev = .error
    · simp only [h1, if_true]
      exact ⟨fun _ => .inr trivial, fun _ => by omega⟩
    · simp only [if_neg h1]
      exact ⟨.inl, fun hh => hh.elim id fun h2 => absurd h2 h1⟩

theorem addAll_errors_pos : ∀ (ds : List Diagnostic) (l : DList), 0 < (l.addAll ds).errors ↔ 0 < l.errors ∨ ∃ d ∈ ds, d.sev = .error
  | [], l => by simp [DList.addAll]
  | d :: ds, l => by
    show 0 < ((l.add d).addAll ds).errors ↔ _
    rw [addAll_errors_pos ds, add_errors_pos]
    simp only [List.mem_cons, exists_eq_or_imp]
    constructor
    · rintro ((h | h) | h)
      · exact .inl h
      · exact .inr (.inl h)
      · exact .inr (.inr h)
    · rintro (h | h | h)
      · exact .inl (.inl h)
      · exact .inl (.inr h)
      · exact .inr h

theorem has_iff (l : DList) : l.hasErrors = true ↔ 0 < l.errors := by
  unfold DList.hasErrors; exact decide_eq_true_iff

/-- The counter counts the errors in the list. -/
theorem add_count {l : DList} (d : Diagnostic) (h : l.errors = (l.items.filter fun d => d.sev == .error).length) :
    (l.add d).errors = ((l.add d).items.filter fun d => d.sev == .error).length := by
  unfold DList.add
  by_cases h0 : d.sev = .error ∧ l.errors ≥ 20
  · rw [if_pos h0]; exact h
  · rw [if_neg h0]
    simp only [List.filter_append, List.length_append]
    by_cases h1 : d.sev = .error
    · simp only [h1, if_true, List.filter_cons, beq_self_eq_true, List.filter_nil, List.length_singleton]
      omega
    · have : (d.sev == .error) = false := by rw [beq_eq_false_iff_ne]; exact h1
      simp only [if_neg h1, List.filter_cons, this, List.filter_nil, List.length_nil]
      simp only [Bool.false_eq_true, if_false, List.length_nil]
      omega

theorem addAll_count : ∀ (ds : List Diagnostic) {l : DList}, l.errors = (l.items.filter fun d => d.sev == .error).length →
    (l.addAll ds).errors = ((l.addAll ds).items.filter fun d => d.sev == .error).length
  | [], _, h => h
  | d :: ds, _, h => addAll_count ds (add_count d h)

theorem shown_error {l : DList} (h : l.errors = (l.items.filter fun d => d.sev == .error).length) (hp : 0 < l.errors) :
    ∃ d ∈ l.shown, d.sev = .error := by
  rw [h] at hp
  obtain ⟨d, hd⟩ := List.exists_mem_of_length_pos hp
  obtain ⟨h1, h2⟩ := List.mem_filter.mp hd
  have h2 : d.sev = .error := beq_iff_eq.mp h2
  refine ⟨d, List.mem_filter.mpr ⟨h1, ?_⟩, h2⟩
  unfold DList.suppressed
  rw [if_pos (by rw [h2]; decide)]
  rfl

/-- Without errors all is kept. -/
theorem addAll_warn : ∀ (ds : List Diagnostic) (l : DList), (∀ d ∈ ds, d.sev ≠ .error) →
    (l.addAll ds).items = l.items ++ ds ∧ (l.addAll ds).warnings = l.warnings + ds.length ∧ (l.addAll ds).all = l.all ∧ (l.addAll ds).codes = l.codes
  | [], l, _ => ⟨by simp [DList.addAll], rfl, rfl, rfl⟩
  | d :: ds, l, h => by
    have hd := h d List.mem_cons_self
    have e : l.add d = { l with items := l.items ++ [d], errors := l.errors, warnings := l.warnings + 1 } := by
      unfold DList.add
      rw [if_neg (fun h => hd h.1), if_neg hd, if_neg hd]
    obtain ⟨h1, h2, h3, h4⟩ := addAll_warn ds (l.add d) fun d h' => h d (List.mem_cons_of_mem _ h')
    rw [e] at h1 h2 h3 h4
    show ((l.add d).addAll ds).items = _ ∧ ((l.add d).addAll ds).warnings = _ ∧ ((l.add d).addAll ds).all = _ ∧ ((l.add d).addAll ds).codes = _
    rw [e]
    refine ⟨by rw [h1, List.append_assoc]; rfl, by rw [h2, List.length_cons]; show l.warnings + 1 + ds.length = _; omega, h3, h4⟩

end Dg

/-- The user asked not to see this warning. -/
def Hidden (all : Bool) (codes : List Str) (d : Diagnostic) : Prop := all = true ∨ ∃ c ∈ codes, d.code = some c

namespace Dg

theorem mem_shown {l : DList} {d : Diagnostic} (hd : d.sev ≠ .error) : d ∈ l.shown ↔ d ∈ l.items ∧ ¬ Hidden l.all l.codes d := by
  have hw : d.sev = .warning := by cases h : d.sev with | error => exact absurd h hd | warning => rfl
  unfold DList.shown
  rw [List.mem_filter]
  refine and_congr_right fun _ => ?_
  rw [Bool.not_eq_true', ← Bool.not_eq_true]
  refine not_congr ?_
  unfold DList.suppressed Hidden
  rw [if_neg (by rw [hw]; decide)]
  by_cases ha : l.all = true
  · rw [if_pos ha]; exact ⟨fun _ => .inl ha, fun _ => rfl⟩
  · rw [if_neg ha]
    cases hc : d.code with
    | none => simp [ha]
    | some c => simp [ha]

end Dg

/-- **C162.** Code is generated if and only if no stage reported an error. If none is generated, an error is shown; if it is, all warnings
are shown that the user did not hide. -/
theorem C162_errors_stop (all : Bool) (codes : List Str) (parse check : List Diagnostic) :
    ((compile all codes parse check).2 = true ↔ ∀ d ∈ parse ++ check, d.sev ≠ .error) ∧
    ((compile all codes parse check).2 = false → ∃ d ∈ (compile all codes parse check).1, d.sev = .error) ∧
    ((compile all codes parse check).2 = true → ∀ d, d ∈ (compile all codes parse check).1 ↔ d ∈ parse ++ check ∧ ¬ Hidden all codes d) := by
  have hz : (DList.new all codes).errors = ((DList.new all codes).items.filter fun d => d.sev == .error).length := rfl
  have c1 := Dg.addAll_count parse hz
  have c2 := Dg.addAll_count check c1
  have p1 : 0 < ((DList.new all codes).addAll parse).errors ↔ ∃ d ∈ parse, d.sev = .error := by
    rw [Dg.addAll_errors_pos]; exact ⟨fun h => h.resolve_left (by show ¬ 0 < 0; omega), .inr⟩
  have p2 := Dg.addAll_errors_pos check ((DList.new all codes).addAll parse)
  unfold compile
  simp only []
  by_cases h1 : 0 < ((DList.new all codes).addAll parse).errors
  · rw [if_pos ((Dg.has_iff _).mpr h1)]
    refine ⟨⟨fun h => absurd h (by simp), fun h => ?_⟩, fun _ => Dg.shown_error c1 h1, fun h => absurd h (by simp)⟩
    obtain ⟨d, hd, he⟩ := p1.mp h1
    exact absurd he (h d (List.mem_append_left _ hd))
  · rw [if_neg (fun h => h1 ((Dg.has_iff _).mp h))]
    by_cases h2 : 0 < (((DList.new all codes).addAll parse).addAll check).errors
    · rw [if_pos ((Dg.has_iff _).mpr h2)]
      refine ⟨⟨fun h => absurd h (by simp), fun h => ?_⟩, fun _ => Dg.shown_error c2 h2, fun h => absurd h (by simp)⟩
      obtain ⟨d, hd, he⟩ := (p2.mp h2).resolve_left h1
      exact absurd he (h d (List.mem_append_right _ hd))
    · rw [if_neg (fun h => h2 ((Dg.has_iff _).mp h))]
      have hno : ∀ d ∈ parse ++ check, d.sev ≠ .error := by
        intro d hd he
        rcases List.mem_append.mp hd with hd | hd
        · exact h1 (p1.mpr ⟨d, hd, he⟩)
        · exact h2 (p2.mpr (.inr ⟨d, hd, he⟩))
      have happ : ((DList.new all codes).addAll parse).addAll check = (DList.new all codes).addAll (parse ++ check) := by
        unfold DList.addAll; rw [List.foldl_append]
      obtain ⟨w1, w2, w3, w4⟩ := Dg.addAll_warn (parse ++ check) (DList.new all codes) hno
      rw [happ]
      have w1 : ((DList.new all codes).addAll (parse ++ check)).items = parse ++ check := w1
      by_cases h3 : (((DList.new all codes).addAll (parse ++ check)).warnings > 0)
      · rw [if_pos h3]
        refine ⟨⟨fun _ => hno, fun _ => rfl⟩, fun h => absurd h (by simp), fun _ d => ?_⟩
        by_cases hd : d.sev = .error
        · constructor
          · intro hm
            have : d ∈ parse ++ check := by rw [← w1]; exact (List.mem_filter.mp hm).1
            exact absurd hd (hno d this)
          · rintro ⟨hm, -⟩
            exact absurd hd (hno d hm)
        · rw [Dg.mem_shown hd, w1, w3, w4]
          exact Iff.rfl
      · rw [if_neg h3]
        refine ⟨⟨fun _ => hno, fun _ => rfl⟩, fun h => absurd h (by simp), fun _ d => ?_⟩
        have w2 : ((DList.new all codes).addAll (parse ++ check)).warnings = 0 + (parse ++ check).length := w2
        have : parse ++ check = [] := List.length_eq_zero_iff.mp (by omega)
        rw [this]
        simp

/-- An error and a warning at some place, for examples. -/
def dErr : Diagnostic := ⟨.error, some [69, 49], none, 1, 1, 0⟩
def dWarn : Diagnostic := ⟨.warning, some [87, 49], none, 1, 1, 0⟩

example : compile false [] [dWarn] [dWarn, dErr] = ([dWarn, dWarn, dErr], false) := by decide
example : compile true [] [dWarn] [dWarn] = ([], true) := by decide

/-! ## C163: every error is shown and counted -/

/-- **C163.** The errors shown are those reported, and the summary gives their number. -/
def C163_statement : Prop :=
  ∀ (all : Bool) (codes : List Str) (ds : List Diagnostic),
    let l := (DList.new all codes).addAll ds
    l.shown.filter (·.sev = .error) = ds.filter (·.sev = .error) ∧ l.summary.1 = (ds.filter (·.sev = .error)).length

/-- Of 21 errors 20 are shown, and the summary says that there are 20. -/
theorem C163_witness : ((DList.new false []).addAll (List.replicate 21 dErr)).shown = List.replicate 20 dErr ∧
    ((DList.new false []).addAll (List.replicate 21 dErr)).summary = (20, 0) := by decide +kernel

theorem C163_fails : ¬ C163_statement := by
  intro h
  have := (h false [] (List.replicate 21 dErr)).2
  rw [C163_witness.2] at this
  revert this
  decide +kernel

namespace Dg

theorem add_all (l : DList) (d : Diagnostic) : (l.add d).all = l.all ∧ (l.add d).codes = l.codes := by
  unfold DList.add
  by_cases h : d.sev = .error ∧ l.errors ≥ 20
  · rw [if_pos h]; exact ⟨rfl, rfl⟩
  · rw [if_neg h]; exact ⟨rfl, rfl⟩

theorem addAll_all : ∀ (ds : List Diagnostic) (l : DList), (l.addAll ds).all = l.all ∧ (l.addAll ds).codes = l.codes
  | [], _ => ⟨rfl, rfl⟩
  | d :: ds, l => by
    have h1 := addAll_all ds (l.add d)
    have h2 := add_all l d
    exact ⟨h1.1.trans h2.1, h1.2.trans h2.2⟩

/-- The list keeps all warnings and the first errors. -/
theorem items : ∀ (ds : List Diagnostic) (l : DList), l.errors ≤ 20 → ∃ ks, (l.addAll ds).items = l.items ++ ks ∧ ks.Sublist ds ∧
    ks.filter (·.sev = .error) = (ds.filter (·.sev = .error)).take (20 - l.errors) ∧ ks.filter (·.sev ≠ .error) = ds.filter (·.sev ≠ .error) ∧
    (l.addAll ds).errors = min 20 (l.errors + (ds.filter (·.sev = .error)).length)
  | [], l, h => ⟨[], by simp [DList.addAll], List.Sublist.refl _, by simp, rfl, by
      show l.errors = min 20 (l.errors + 0); omega⟩
  | d :: ds, l, h => by
    show ∃ ks, ((l.add d).addAll ds).items = _ ∧ _ ∧ _ ∧ _ ∧ ((l.add d).addAll ds).errors = _
    by_cases he : d.sev = .error
    · have hde : decide (d.sev = .error) = true := decide_eq_true he
      have hdn : decide (d.sev ≠ .error) = false := by simp [he]
      by_cases h20 : l.errors ≥ 20
      · have ha : l.add d = l := if_pos ⟨he, h20⟩
        obtain ⟨ks, k1, k2, k3, k4, k5⟩ := items ds l h
        rw [ha]
        refine ⟨ks, k1, k2.trans (List.sublist_cons_self _ _), ?_, ?_, ?_⟩
        · rw [k3, show 20 - l.errors = 0 by omega]; rfl
        · rw [k4, List.filter_cons, if_neg (by rw [hdn]; decide)]
        · rw [k5, List.filter_cons, if_pos hde, List.length_cons]; omega
      · have ha : (l.add d).items = l.items ++ [d] ∧ (l.add d).errors = l.errors + 1 := by
          unfold DList.add
          rw [if_neg (by omega)]
          exact ⟨rfl, if_pos he⟩
        obtain ⟨ks, k1, k2, k3, k4, k5⟩ := items ds (l.add d) (by omega)
        refine ⟨d :: ks, by rw [k1, ha.1, List.append_assoc]; rfl, k2.cons_cons _, ?_, ?_, ?_⟩
        · rw [List.filter_cons, if_pos hde, List.filter_cons, if_pos hde, k3, ha.2, show 20 - l.errors = (20 - (l.errors + 1)) + 1 by omega,
            List.take_succ_cons]
        · rw [List.filter_cons, if_neg (by rw [hdn]; decide), List.filter_cons, if_neg (by rw [hdn]; decide), k4]
        · rw [k5, ha.2, List.filter_cons, if_pos hde, List.length_cons]; omega
    · have hde : decide (d.sev = .error) = false := decide_eq_false he
      have hdn : decide (d.sev ≠ .error) = true := decide_eq_true he
      have ha : (l.add d).items = l.items ++ [d] ∧ (l.add d).errors = l.errors := by
        unfold DList.add
        rw [if_neg (fun h => he h.1)]
        exact ⟨rfl, if_neg he⟩
      obtain ⟨ks, k1, k2, k3, k4, k5⟩ := items ds (l.add d) (by omega)
      refine ⟨d :: ks, by rw [k1, ha.1, List.append_assoc]; rfl, k2.cons_cons _, ?_, ?_, ?_⟩
      · rw [List.filter_cons, if_neg (by rw [hde]; decide), List.filter_cons, if_neg (by rw [hde]; decide), k3, ha.2]
      · rw [List.filter_cons, if_pos hdn, List.filter_cons, if_pos hdn, k4]
      · rw [k5, ha.2, List.filter_cons, if_neg (by rw [hde]; decide)]

theorem suppressed_error {l : DList} {d : Diagnostic} (h : d.sev = .error) : l.suppressed d = false := by
  unfold DList.suppressed
  rw [if_pos (by rw [h]; decide)]

theorem shown_errors (l : DList) : l.shown.filter (·.sev = .error) = l.items.filter (·.sev = .error) := by
  unfold DList.shown
  rw [List.filter_filter]
  apply List.filter_congr
  intro d _
  by_cases h : d.sev = .error
  · rw [suppressed_error h]; simp
  · simp [h]

end Dg

/-- **C163 (partial).** What is shown is part of what was reported, in the same order; of the errors the first 20 are shown and at most
20 are counted. Missing: the further errors. -/
theorem C163_partial (all : Bool) (codes : List Str) (ds : List Diagnostic) :
    let l := (DList.new all codes).addAll ds
    l.shown.Sublist ds ∧ l.shown.filter (·.sev = .error) = (ds.filter (·.sev = .error)).take 20 ∧
    l.summary.1 = min 20 (ds.filter (·.sev = .error)).length := by
  intro l
  obtain ⟨ks, k1, k2, k3, k4, k5⟩ := Dg.items ds (DList.new all codes) (by show 0 ≤ 20; omega)
  have k1 : l.items = ks := k1
  refine ⟨?_, ?_, ?_⟩
  · have : l.shown.Sublist l.items := List.filter_sublist
    rw [k1] at this
    exact this.trans k2
  · rw [Dg.shown_errors, k1]; exact k3
  · show l.errors = _
    rw [show l.errors = _ from k5]
    show min 20 (0 + _) = _
    rw [Nat.zero_add]

/-! ## C164: hiding warnings -/

/-- A code is one of the pieces between commas. -/
def Named (arg code : Str) : Prop := [44] ++ code ++ [44] <:+: [44] ++ arg ++ [44]

/-- Some piece does not start with `W` (87). -/
def BadPiece (arg : Str) : Prop := ∃ a x b, arg = a ++ x :: b ∧ x ≠ 44 ∧ x ≠ 87 ∧ (a = [] ∨ a.getLast? = some 44)

namespace Dg

/-- The pieces of a text after `cur`, as splits. -/
theorem mem_pieces : ∀ (s cur p : Str), 44 ∉ cur →
    (p ∈ pieces cur s ↔ p ≠ [] ∧ 44 ∉ p ∧ ((∃ q r, p = cur.reverse ++ q ∧ s ++ [44] = q ++ 44 :: r) ∨
      ∃ a r, s ++ [44] = a ++ 44 :: (p ++ 44 :: r)))
  | [], cur, p, hc => by
    unfold pieces
    by_cases h0 : cur = []
    · subst h0
      rw [if_pos rfl]
      refine ⟨fun h => absurd h List.not_mem_nil, ?_⟩
      rintro ⟨h1, h2, h | h⟩
      · obtain ⟨q, r, e1, e2⟩ := h
        cases q with
        | nil => exact absurd (by rw [e1]; rfl) h1
        | cons c q =>
          have := congrArg List.length e2
          simp at this
      · obtain ⟨a, r, e⟩ := h
        have := congrArg List.length e
        simp at this
        omega
    · rw [if_neg h0, List.mem_singleton]
      constructor
      · rintro rfl
        refine ⟨by simpa using h0, by simpa using hc, .inl ⟨[], [], by simp, rfl⟩⟩
      · rintro ⟨h1, h2, h | h⟩
        · obtain ⟨q, r, e1, e2⟩ := h
          cases q with
          | nil => simpa using e1
          | cons c q =>
            have := congrArg List.length e2
            simp at this
        · obtain ⟨a, r, e⟩ := h
          have := congrArg List.length e
          simp at this
          omega
  | c :: s, cur, p, hc => by
    unfold pieces
    by_cases h44 : c = 44
    · subst h44
      rw [if_pos rfl]
      have ih := mem_pieces s [] p List.not_mem_nil
      have split : ((∃ q r, p = cur.reverse ++ q ∧ (44 :: s) ++ [44] = q ++ 44 :: r) ∨ ∃ a r, (44 :: s) ++ [44] = a ++ 44 :: (p ++ 44 :: r)) ∧ 44 ∉ p ↔
          (p = cur.reverse ∨ (∃ q r, p = [].reverse ++ q ∧ s ++ [44] = q ++ 44 :: r) ∨ ∃ a r, s ++ [44] = a ++ 44 :: (p ++ 44 :: r)) ∧ 44 ∉ p := by
        constructor
        · rintro ⟨h | h, hp⟩
          · obtain ⟨q, r, e1, e2⟩ := h
            cases q with
            | nil => exact ⟨.inl (by simpa using e1), hp⟩
            | cons d q =>
              injection e2 with e3 e4
              exact absurd (by rw [e1, ← e3]; simp) hp
          · obtain ⟨a, r, e⟩ := h
            cases a with
            | nil =>
              injection e with e3 e4
              exact ⟨.inr (.inl ⟨p, r, rfl, e4⟩), hp⟩
            | cons d a =>
              injection e with e3 e4
              exact ⟨.inr (.inr ⟨a, r, e4⟩), hp⟩
        · rintro ⟨h | h | h, hp⟩
          · exact ⟨.inl ⟨[], s ++ [44], by simpa using h, rfl⟩, hp⟩
          · obtain ⟨q, r, e1, e2⟩ := h
            have e1 : p = q := e1
            subst e1
            exact ⟨.inr ⟨[], r, by rw [List.cons_append, e2]; rfl⟩, hp⟩
          · obtain ⟨a, r, e⟩ := h
            exact ⟨.inr ⟨44 :: a, r, by rw [List.cons_append, e]; rfl⟩, hp⟩
      by_cases h0 : cur = []
      · rw [if_pos h0, ih]
        subst h0
        constructor
        · rintro ⟨h1, h2, h3⟩
          exact ⟨h1, h2, (split.mpr ⟨.inr h3, h2⟩).1⟩
        · rintro ⟨h1, h2, h3⟩
          exact ⟨h1, h2, ((split.mp ⟨h3, h2⟩).1).resolve_left h1⟩
      · rw [if_neg h0, List.mem_cons, ih]
        constructor
        · rintro (h | ⟨h1, h2, h3⟩)
          · have hp : 44 ∉ p := by rw [h]; simpa using hc
            exact ⟨by rw [h]; simpa using h0, hp, (split.mpr ⟨.inl h, hp⟩).1⟩
          · exact ⟨h1, h2, (split.mpr ⟨.inr h3, h2⟩).1⟩
        · rintro ⟨h1, h2, h3⟩
          rcases (split.mp ⟨h3, h2⟩).1 with h | h
          · exact .inl h
          · exact .inr ⟨h1, h2, h⟩
    · rw [if_neg h44]
      have hc' : 44 ∉ c :: cur := by
        intro h
        rcases List.mem_cons.mp h with h | h
        · exact h44 h.symm
        · exact hc h
      rw [mem_pieces s (c :: cur) p hc']
      have e1 : (∃ q r, p = (c :: cur).reverse ++ q ∧ s ++ [44] = q ++ 44 :: r) ↔ ∃ q r, p = cur.reverse ++ q ∧ (c :: s) ++ [44] = q ++ 44 :: r := by
        constructor
        · rintro ⟨q, r, e1, e2⟩
          exact ⟨c :: q, r, by rw [e1]; simp, by rw [List.cons_append, e2]; rfl⟩
        · rintro ⟨q, r, e1, e2⟩
          cases q with
          | nil => injection e2 with e3 e4; exact absurd e3 h44
          | cons d q =>
            injection e2 with e3 e4
            exact ⟨q, r, by rw [e1, ← e3]; simp, e4⟩
      have e2 : (∃ a r, s ++ [44] = a ++ 44 :: (p ++ 44 :: r)) ↔ ∃ a r, (c :: s) ++ [44] = a ++ 44 :: (p ++ 44 :: r) := by
        constructor
        · rintro ⟨a, r, e⟩
          exact ⟨c :: a, r, by rw [List.cons_append, e]; rfl⟩
        · rintro ⟨a, r, e⟩
          cases a with
          | nil => injection e with e3 e4; exact absurd e3 h44
          | cons d a => injection e with e3 e4; exact ⟨a, r, e4⟩
      rw [e1, e2]

theorem mem_pieces_iff {arg p : Str} : p ∈ pieces [] arg ↔ p ≠ [] ∧ 44 ∉ p ∧ Named arg p := by
  rw [mem_pieces arg [] p List.not_mem_nil]
  have : ((∃ q r, p = ([] : Str).reverse ++ q ∧ arg ++ [44] = q ++ 44 :: r) ∨ ∃ a r, arg ++ [44] = a ++ 44 :: (p ++ 44 :: r)) ↔ Named arg p := by
    unfold Named
    constructor
    · rintro (⟨q, r, e1, e2⟩ | ⟨a, r, e⟩)
      · have e1 : p = q := e1
        subst e1
        exact ⟨[], r, by simpa [List.append_assoc] using e2.symm⟩
      · exact ⟨44 :: a, r, by simpa [List.append_assoc] using e.symm⟩
    · rintro ⟨a, r, e⟩
      cases a with
      | nil =>
        have e : 44 :: (p ++ 44 :: r) = 44 :: (arg ++ [44]) := by simpa [List.append_assoc] using e
        injection e with _ e
        exact .inl ⟨p, r, rfl, e.symm⟩
      | cons d a =>
        have e : d :: (a ++ 44 :: (p ++ 44 :: r)) = 44 :: (arg ++ [44]) := by simpa [List.append_assoc] using e
        injection e with _ e
        exact .inr ⟨a, r, e.symm⟩
  rw [this]

/-- A text without commas up to the first comma. -/
theorem upto_comma : ∀ (s : Str), ∃ q r, s ++ [44] = q ++ 44 :: r ∧ 44 ∉ q
  | [] => ⟨[], [], rfl, List.not_mem_nil⟩
  | c :: s => by
    by_cases h : c = 44
    · exact ⟨[], s ++ [44], by rw [h]; rfl, List.not_mem_nil⟩
    · obtain ⟨q, r, e, hq⟩ := upto_comma s
      refine ⟨c :: q, r, by rw [List.cons_append, e]; rfl, ?_⟩
      intro hm
      rcases List.mem_cons.mp hm with hm | hm
      · exact h hm.symm
      · exact hq hm

theorem bad_iff {arg : Str} : (∃ p ∈ pieces [] arg, p.head? ≠ some 87) ↔ BadPiece arg := by
  constructor
  · rintro ⟨p, hp, h87⟩
    obtain ⟨h0, h44, a, r, e⟩ := mem_pieces_iff.mp hp
    cases p with
    | nil => exact absurd rfl h0
    | cons x p =>
      have hx : x ≠ 44 := fun h => h44 (h ▸ List.mem_cons_self)
      have hx' : x ≠ 87 := fun h => h87 (by rw [h]; rfl)
      have hne : ∀ z : Str, arg ++ [44] = z ++ (x :: p) ++ 44 :: r → ∃ b, arg = z ++ x :: b := by
        intro z hz
        have h2 : z ++ [x] <+: arg := by
          have h3 : z ++ [x] <+: arg ++ [44] := ⟨p ++ 44 :: r, by rw [hz]; simp⟩
          have h4 : arg <+: arg ++ [44] := List.prefix_append _ _
          rcases List.prefix_or_prefix_of_prefix h3 h4 with h | h
          · exact h
          · have hl := congrArg List.length hz
            simp only [List.length_append, List.length_cons, List.length_nil] at hl
            have hlp := h.length_le
            simp only [List.length_append, List.length_singleton] at hlp
            rw [h.eq_of_length (by simp only [List.length_append, List.length_singleton]; omega)]
            exact List.prefix_rfl
        obtain ⟨b, hb⟩ := h2
        exact ⟨b, by rw [← hb]; simp⟩
      cases a with
      | nil =>
        have e : 44 :: ((x :: p) ++ 44 :: r) = 44 :: (arg ++ [44]) := by simpa [List.append_assoc] using e
        injection e with _ e
        obtain ⟨b, hb⟩ := hne [] e.symm
        exact ⟨[], x, b, hb, hx, hx', .inl rfl⟩
      | cons d a =>
        have e : d :: (a ++ 44 :: ((x :: p) ++ 44 :: r)) = 44 :: (arg ++ [44]) := by simpa [List.append_assoc] using e
        injection e with _ e
        obtain ⟨b, hb⟩ := hne (a ++ [44]) (by rw [← e]; simp)
        exact ⟨a ++ [44], x, b, hb, hx, hx', .inr (by simp)⟩
  · rintro ⟨a, x, b, e, hx, hx', ha⟩
    obtain ⟨q, r, eq, hq⟩ := upto_comma b
    refine ⟨x :: q, mem_pieces_iff.mpr ⟨by simp, ?_, ?_⟩, by simpa using hx'⟩
    · intro hm
      rcases List.mem_cons.mp hm with hm | hm
      · exact hx hm.symm
      · exact hq hm
    · unfold Named
      rcases ha with rfl | ha
      · exact ⟨[], r, by rw [e]; simpa using eq.symm⟩
      · obtain ⟨a', rfl⟩ : ∃ a', a = a' ++ [44] := by
          rw [List.getLast?_eq_some_iff] at ha
          exact ha
        exact ⟨44 :: a', r, by rw [e]; simpa using eq.symm⟩

theorem named_suppressed {l : DList} {d : Diagnostic} {c : Str} (hw : d.sev = .warning) (hc : d.code = some c) :
    l.suppressed d = true ↔ l.all = true ∨ c ∈ l.codes := by
  unfold DList.suppressed
  rw [if_neg (by rw [hw]; decide), hc]
  by_cases ha : l.all = true
  · rw [if_pos ha]; exact ⟨fun _ => .inl ha, fun _ => rfl⟩
  · rw [if_neg ha]
    simp only [List.any_eq_true, beq_iff_eq, exists_eq_right]
    exact ⟨.inr, fun h => h.resolve_left ha⟩

end Dg

/-- **C164.** `-q` with a list of codes is refused if a piece does not start with `W`. Otherwise a warning is shown if and only if it was
reported and its code is not among the pieces; with `-q` alone none is shown; the summary counts the warnings that are shown. -/
theorem C164_quiet (arg : Str) (ds : List Diagnostic) (hcode : ∀ d ∈ ds, d.sev = .warning → ∃ c, d.code = some c ∧ c ≠ [] ∧ 44 ∉ c) :
    (quietCodes arg = none ↔ BadPiece arg) ∧
    (∀ codes, quietCodes arg = some codes →
      (∀ d, d.sev = .warning → (d ∈ ((DList.new false codes).addAll ds).shown ↔ d ∈ ds ∧ ∀ c, d.code = some c → ¬ Named arg c)) ∧
      ((DList.new false codes).addAll ds).summary.2 = (((DList.new false codes).addAll ds).shown.filter (·.sev = .warning)).length) ∧
    (∀ d ∈ ((DList.new true []).addAll ds).shown, d.sev ≠ .warning) := by
  refine ⟨?_, ?_, ?_⟩
  · rw [← Dg.bad_iff]
    unfold quietCodes
    simp only []
    by_cases h : (pieces [] arg).all (fun p => p.head? == some 87) = true
    · rw [if_pos h]
      refine ⟨fun h => absurd h (by simp), ?_⟩
      rintro ⟨p, hp, hn⟩
      exact absurd (beq_iff_eq.mp (List.all_eq_true.mp h p hp)) hn
    · rw [if_neg h]
      refine ⟨fun _ => ?_, fun _ => rfl⟩
      rw [Bool.not_eq_true, List.all_eq_false] at h
      obtain ⟨p, hp, hn⟩ := h
      exact ⟨p, hp, fun h => hn (by rw [h]; rfl)⟩
  · intro codes hq
    have hcodes : codes = pieces [] arg := by
      unfold quietCodes at hq
      simp only [] at hq
      by_cases h : (pieces [] arg).all (fun p => p.head? == some 87) = true
      · rw [if_pos h] at hq; exact (Option.some.inj hq).symm
      · rw [if_neg h] at hq; exact absurd hq (by simp)
    obtain ⟨ks, k1, k2, k3, k4, k5⟩ := Dg.items ds (DList.new false codes) (by show 0 ≤ 20; omega)
    have k1 : ((DList.new false codes).addAll ds).items = ks := k1
    have ha := Dg.addAll_all ds (DList.new false codes)
    refine ⟨?_, ?_⟩
    · intro d hw
      have hne : d.sev ≠ .error := by rw [hw]; decide
      unfold DList.shown
      rw [List.mem_filter, k1]
      have hmem : d ∈ ks ↔ d ∈ ds := by
        have h1 : d ∈ ks.filter (·.sev ≠ .error) ↔ d ∈ ds.filter (·.sev ≠ .error) := by rw [k4]
        rw [List.mem_filter, List.mem_filter] at h1
        have h2 : decide (d.sev ≠ .error) = true := decide_eq_true hne
        exact ⟨fun h => (h1.mp ⟨h, h2⟩).1, fun h => (h1.mpr ⟨h, h2⟩).1⟩
      rw [hmem]
      refine and_congr_right fun hd => ?_
      obtain ⟨c, hc, h0, h44⟩ := hcode d hd hw
      rw [Bool.not_eq_true', ← Bool.not_eq_true, Dg.named_suppressed hw hc, ha.1, ha.2]
      show ¬ (false = true ∨ c ∈ codes) ↔ _
      rw [hcodes, Dg.mem_pieces_iff]
      constructor
      · intro h c' hc'
        rw [hc] at hc'
        cases hc'
        exact fun hn => h (.inr ⟨h0, h44, hn⟩)
      · rintro h (h1 | h1)
        · exact absurd h1 (by decide)
        · exact h c hc h1.2.2
    · unfold DList.summary DList.shown
      rw [List.filter_filter]
      show (List.filter _ _).length = _
      congr 1
  · intro d hd hw
    have h := (List.mem_filter.mp hd).2
    have ha := (Dg.addAll_all ds (DList.new true [])).1
    rw [Bool.not_eq_true'] at h
    unfold DList.suppressed at h
    rw [if_neg (by rw [hw]; decide), ha, if_pos (show (DList.new true []).all = true from rfl)] at h
    exact absurd h (by decide)

example : quietCodes [87, 49, 44, 44, 87, 50] = some [[87, 49], [87, 50]] ∧ quietCodes [87, 49, 44, 119] = none := by decide
example : ((DList.new false [[87, 49]]).addAll [dWarn, dErr]).shown = [dErr] := by decide

/-! ## C165: the source line shown -/

/-- `l` is line `n` of the text, without its line feed. -/
def LineOf (text : Str) (n : Int) (l : Str) : Prop :=
  ∃ pre post, text = pre ++ l ++ post ∧ n = pre.count 10 + 1 ∧ (pre = [] ∨ pre.getLast? = some 10) ∧ 10 ∉ l ∧ (post = [] ∨ post.head? = some 10)

/-- The source of the program, and the other files. -/
def FileText (main src : Str) (disk : Str → Option Str) (path : Str) : Option Str := if path = main then some src else disk path

/-- **C165.** With every diagnostic the line of its file is shown, if there is such a line, and otherwise none. -/
def C165_statement : Prop :=
  ∀ (main src : Str) (disk : Str → Option Str) (ps : List (Str × Int)) (i : Nat) (p : Str) (n : Int), ps[i]? = some (p, n) →
    ∃ r, (Cache.lines disk (Cache.start main src) ps)[i]? = some r ∧
      ∀ l, r = some l ↔ ∃ text, FileText main src disk p = some text ∧ LineOf text n l

/-- A line of 2048 bytes is cut, and after a 0 byte there are no lines. -/
theorem C165_witness : (Cache.lines (fun _ => none) (Cache.start [97] (List.replicate 2048 98)) [([97], 1)])[0]? = some (some (List.replicate 2047 98)) ∧
    (Cache.lines (fun _ => none) (Cache.start [97] [0, 10, 98]) [([97], 2)])[0]? = some none := by
  refine ⟨?_, by decide⟩
  decide +kernel

theorem C165_fails : ¬ C165_statement := by
  intro h
  obtain ⟨r, hr, h⟩ := h [97] [0, 10, 98] (fun _ => none) [([97], 2)] 0 [97] 2 rfl
  rw [C165_witness.2] at hr
  cases hr
  have := (h [98]).mpr ⟨[0, 10, 98], by decide, [0, 10], [], rfl, by decide, .inr rfl, by decide, .inl rfl⟩
  exact absurd this (by simp)

namespace Dg

/-- `s` is the text from the start of line `k + 1` on. -/
def Start (text : Str) (k : Nat) (s : Str) : Prop := ∃ pre, text = pre ++ s ∧ pre.count 10 = k ∧ (pre = [] ∨ pre.getLast? = some 10)

theorem start_zero {text s : Str} : Start text 0 s ↔ s = text := by
  constructor
  · rintro ⟨pre, h1, h2, h3⟩
    rcases h3 with rfl | h3
    · exact h1.symm
    · exact absurd (List.mem_of_getLast? h3) (List.count_eq_zero.mp h2)
  · rintro rfl
    exact ⟨[], rfl, rfl, .inl rfl⟩

theorem index_start : ∀ (text : Str) (k : Nat) (s : Str), 0 ∉ text → ((lineIndex text)[k]? = some s ↔ Start text k s)
  | text, 0, s, _ => by
    rw [start_zero]
    show some text = some s ↔ _
    exact ⟨fun h => (Option.some.inj h).symm, fun h => by rw [h]⟩
  | [], k + 1, s, _ => by
    refine ⟨fun h => absurd h (by show ¬ (([] : List Str)[k]? = some s); simp), ?_⟩
    rintro ⟨pre, h1, h2, h3⟩
    have : pre = [] := (List.append_eq_nil_iff.mp h1.symm).1
    rw [this] at h2
    exact absurd h2 (by simp)
  | c :: t, k + 1, s, h0 => by
    have hc0 : c ≠ 0 := fun e => h0 (e ▸ List.mem_cons_self)
    have ht : 0 ∉ t := fun e => h0 (List.mem_cons_of_mem _ e)
    show (lineStarts (c :: t))[k]? = some s ↔ _
    unfold lineStarts
    rw [if_neg hc0]
    by_cases hc : c = 10
    · subst hc
      rw [if_pos rfl]
      show (lineIndex t)[k]? = some s ↔ _
      rw [index_start t k s ht]
      constructor
      · rintro ⟨pre, h1, h2, h3⟩
        refine ⟨10 :: pre, by rw [h1]; rfl, by rw [List.count_cons_self, h2], .inr ?_⟩
        rcases h3 with rfl | h3
        · rfl
        · rw [List.getLast?_cons, h3]; rfl
      · rintro ⟨pre, h1, h2, h3⟩
        cases pre with
        | nil => exact absurd h2 (by simp)
        | cons d pre =>
          injection h1 with e1 e2
          subst e1
          refine ⟨pre, e2, by rw [List.count_cons_self] at h2; omega, ?_⟩
          cases pre with
          | nil => exact .inl rfl
          | cons a pre =>
            rcases h3 with h3 | h3
            · exact absurd h3 (by simp)
            · exact .inr (by rw [List.getLast?_cons_cons] at h3; exact h3)
    · rw [if_neg hc]
      show (lineIndex t)[k + 1]? = some s ↔ _
      rw [index_start t (k + 1) s ht]
      have hcnt : ∀ pre : Str, (c :: pre).count 10 = pre.count 10 := fun pre => List.count_cons_of_ne hc
      constructor
      · rintro ⟨pre, h1, h2, h3⟩
        refine ⟨c :: pre, by rw [h1]; rfl, by rw [hcnt, h2], .inr ?_⟩
        rcases h3 with rfl | h3
        · exact absurd h2 (by simp)
        · rw [List.getLast?_cons, h3]; rfl
      · rintro ⟨pre, h1, h2, h3⟩
        cases pre with
        | nil => exact absurd h2 (by simp)
        | cons d pre =>
          injection h1 with e1 e2
          subst e1
          rw [hcnt] at h2
          refine ⟨pre, e2, h2, ?_⟩
          cases pre with
          | nil => exact absurd h2 (by simp)
          | cons a pre =>
            rcases h3 with h3 | h3
            · exact absurd h3 (by simp)
            · exact .inr (by rw [List.getLast?_cons_cons] at h3; exact h3)

theorem takeWhile_line : ∀ (s l : Str), 0 ∉ s → (s.takeWhile (fun c => c != 0 && c != 10) = l ↔ 10 ∉ l ∧ ∃ post, s = l ++ post ∧ (post = [] ∨ post.head? = some 10))
  | [], l, _ => by
    constructor
    · rintro rfl
      exact ⟨List.not_mem_nil, [], rfl, .inl rfl⟩
    · rintro ⟨-, post, h, -⟩
      exact (List.append_eq_nil_iff.mp h.symm).1.symm
  | c :: s, l, h0 => by
    have hc0 : c ≠ 0 := fun e => h0 (e ▸ List.mem_cons_self)
    have hs : 0 ∉ s := fun e => h0 (List.mem_cons_of_mem _ e)
    by_cases hc : c = 10
    · subst hc
      rw [List.takeWhile_cons, if_neg (by decide)]
      constructor
      · rintro rfl
        exact ⟨List.not_mem_nil, 10 :: s, rfl, .inr rfl⟩
      · rintro ⟨h1, post, h, -⟩
        cases l with
        | nil => rfl
        | cons d l => injection h with e1 e2; exact absurd (e1 ▸ List.mem_cons_self) h1
    · have hb : (c != 0 && c != 10) = true := by
        rw [Bool.and_eq_true, bne_iff_ne, bne_iff_ne]; exact ⟨hc0, hc⟩
      rw [List.takeWhile_cons, if_pos hb]
      cases l with
      | nil =>
        refine ⟨fun h => absurd h (by simp), ?_⟩
        rintro ⟨-, post, h, h2⟩
        have h : c :: s = post := h
        subst h
        rcases h2 with h2 | h2
        · exact absurd h2 (by simp)
        · exact absurd (Option.some.inj h2) hc
      | cons d l =>
        have ih := takeWhile_line s l hs
        constructor
        · intro h
          injection h with e1 e2
          obtain ⟨h1, post, h2, h3⟩ := ih.mp e2
          refine ⟨?_, post, by rw [e1, h2]; rfl, h3⟩
          intro hm
          rcases List.mem_cons.mp hm with hm | hm
          · exact hc (e1.trans hm.symm)
          · exact h1 hm
        · rintro ⟨h1, post, h2, h3⟩
          injection h2 with e1 e2
          rw [e1, ih.mpr ⟨fun hm => h1 (List.mem_cons_of_mem _ hm), post, e2, h3⟩]

/-- Texts that are shown right: no 0 bytes, and no line of 2048 bytes or more. -/
def Plain (text : Str) : Prop := 0 ∉ text ∧ ∀ n l, LineOf text n l → l.length < 2048

theorem readLine_iff {text : Str} (h : Plain text) (n : Int) (l : Str) : readLine (lineIndex text) n = some l ↔ LineOf text n l := by
  have toLine : ∀ {k s}, Start text k s → ∀ l, s.takeWhile (fun c => c != 0 && c != 10) = l → LineOf text (k + 1) l := by
    rintro k s ⟨pre, h1, h2, h3⟩ l hl
    have hs : 0 ∉ s := fun hm => h.1 (by rw [h1]; exact List.mem_append_right _ hm)
    obtain ⟨h4, post, h5, h6⟩ := (takeWhile_line s l hs).mp hl
    exact ⟨pre, post, by rw [h1, h5, List.append_assoc], by rw [h2], h3, h4, h6⟩
  unfold readLine
  by_cases hn : n < 1 ∨ n > (lineIndex text).length
  · rw [if_pos hn]
    refine ⟨fun h => absurd h (by simp), ?_⟩
    rintro ⟨pre, post, h1, h2, h3, h4, h5⟩
    exfalso
    have : (lineIndex text)[pre.count 10]? = some (l ++ post) := (index_start text _ _ h.1).mpr ⟨pre, by rw [h1, List.append_assoc], rfl, h3⟩
    obtain ⟨hlt, -⟩ := List.getElem?_eq_some_iff.mp this
    rcases hn with hn | hn
    · omega
    · omega
  · rw [if_neg hn]
    obtain ⟨k, rfl⟩ : ∃ k : Nat, n = k + 1 := ⟨(n - 1).toNat, by omega⟩
    have hk : ((k : Int) + 1 - 1).toNat = k := by omega
    rw [hk]
    cases hs : (lineIndex text)[k]? with
    | none =>
      rw [List.getElem?_eq_none_iff] at hs
      omega
    | some s =>
      have st := (index_start text k s h.1).mp hs
      have hsz : 0 ∉ s := by
        obtain ⟨pre, h1, -, -⟩ := st
        exact fun hm => h.1 (by rw [h1]; exact List.mem_append_right _ hm)
      have hlt := h.2 _ _ (toLine st _ rfl)
      simp only []
      rw [if_neg (by omega)]
      constructor
      · intro e
        exact toLine st l (Option.some.inj e)
      · rintro ⟨pre, post, h1, h2, h3, h4, h5⟩
        have hcnt : pre.count 10 = k := by omega
        have : (lineIndex text)[k]? = some (l ++ post) := (index_start text _ _ h.1).mpr ⟨pre, by rw [h1, List.append_assoc], hcnt, h3⟩
        rw [hs] at this
        cases this
        rw [(takeWhile_line (l ++ post) l hsz).mpr ⟨h4, post, rfl, h5⟩]

/-- A slot holds the content of its file. -/
def SlotOk (content : Str → Option Str) (s : Option Slot) : Prop := ∀ x, s = some x → content x.path = some x.source ∧ x.index = lineIndex x.source

structure CacheOk (main : Str) (content : Str → Option Str) (c : Cache) : Prop where
  m : ∃ x, c.main = some x ∧ x.path = main
  m' : SlotOk content c.main
  a : SlotOk content c.s1
  b : SlotOk content c.s2
  c : SlotOk content c.s3

theorem touch_ok {content : Str → Option Str} {s : Option Slot} {t : Nat} (h : SlotOk content s) : SlotOk content (touch t s) := by
  intro x hx
  cases s with
  | none => exact absurd hx (by simp [touch])
  | some y =>
    have hx : { y with lastUse := t } = x := Option.some.inj hx
    subst hx
    exact h y rfl

theorem hit_get {content : Str → Option Str} {s : Option Slot} {p : Str} {n : Int} (h : SlotOk content s) (hh : hit p s = true) :
    (s.bind fun s => readLine s.index n) = (content p).bind fun t => readLine (lineIndex t) n := by
  cases s with
  | none => exact absurd hh (by simp [hit])
  | some x =>
    have hp : x.path = p := beq_iff_eq.mp hh
    obtain ⟨h1, h2⟩ := h x rfl
    rw [← hp, h1]
    show readLine x.index n = readLine (lineIndex x.source) n
    rw [h2]

theorem line_ok {main src : Str} {disk : Str → Option Str} {c : Cache} (h : CacheOk main (FileText main src disk) c) (p : Str) (n : Int) :
    (c.line disk p n).1 = ((FileText main src disk p).bind fun t => readLine (lineIndex t) n) ∧
    CacheOk main (FileText main src disk) (c.line disk p n).2 := by
  obtain ⟨x, hx, hxm⟩ := h.m
  unfold Cache.line
  simp only []
  by_cases h0 : hit p c.main = true
  · rw [if_pos h0]
    exact ⟨hit_get h.m' h0, ⟨⟨{ x with lastUse := (c.clock + 1) % 2 ^ 32 }, by show touch _ c.main = _; rw [hx]; rfl, hxm⟩, touch_ok h.m', h.a, h.b, h.c⟩⟩
  · rw [if_neg h0]
    by_cases h1 : hit p c.s1 = true
    · rw [if_pos h1]
      exact ⟨hit_get h.a h1, ⟨⟨x, hx, hxm⟩, h.m', touch_ok h.a, h.b, h.c⟩⟩
    · rw [if_neg h1]
      by_cases h2 : hit p c.s2 = true
      · rw [if_pos h2]
        exact ⟨hit_get h.b h2, ⟨⟨x, hx, hxm⟩, h.m', h.a, touch_ok h.b, h.c⟩⟩
      · rw [if_neg h2]
        by_cases h3 : hit p c.s3 = true
        · rw [if_pos h3]
          exact ⟨hit_get h.c h3, ⟨⟨x, hx, hxm⟩, h.m', h.a, h.b, touch_ok h.c⟩⟩
        · rw [if_neg h3]
          have hpm : p ≠ main := by
            intro e
            rw [hx] at h0
            exact h0 (beq_iff_eq.mpr (hxm.trans e.symm))
          have hcon : FileText main src disk p = disk p := if_neg hpm
          rw [hcon]
          cases hd : disk p with
          | none => exact ⟨rfl, h⟩
          | some s =>
            simp only []
            have hs : ∀ t, SlotOk (FileText main src disk) (some ⟨p, s, lineIndex s, t⟩) := by
              intro t y hy
              cases hy
              exact ⟨by rw [hcon]; exact hd, rfl⟩
            refine ⟨rfl, ?_⟩
            generalize (if useOf c.s2 < useOf c.s1 then (if useOf c.s3 < useOf c.s2 then 3 else 2) else (if useOf c.s3 < useOf c.s1 then 3 else 1)) = ev
            by_cases e1 : ev = 1
            · rw [if_pos e1]; exact ⟨⟨x, hx, hxm⟩, h.m', hs _, h.b, h.c⟩
            · rw [if_neg e1]
              by_cases e2 : ev = 2
              · rw [if_pos e2]; exact ⟨⟨x, hx, hxm⟩, h.m', h.a, hs _, h.c⟩
              · rw [if_neg e2]; exact ⟨⟨x, hx, hxm⟩, h.m', h.a, h.b, hs _⟩

theorem lines_ok {main src : Str} {disk : Str → Option Str} : ∀ (ps : List (Str × Int)) {c : Cache}, CacheOk main (FileText main src disk) c →
    ∀ (i : Nat) (p : Str) (n : Int), ps[i]? = some (p, n) →
      (Cache.lines disk c ps)[i]? = some ((FileText main src disk p).bind fun t => readLine (lineIndex t) n)
  | [], _, _, i, p, n, h => absurd h (by simp)
  | (q, k) :: ps, c, hc, 0, p, n, h => by
    have h : (q, k) = (p, n) := Option.some.inj h
    cases h
    exact congrArg some (line_ok hc q k).1
  | (q, k) :: ps, c, hc, i + 1, p, n, h => lines_ok ps (line_ok hc q k).2 i p n h

theorem start_ok (main src : Str) (disk : Str → Option Str) : CacheOk main (FileText main src disk) (Cache.start main src) := by
  refine ⟨⟨_, rfl, rfl⟩, ?_, ?_, ?_, ?_⟩
  · intro x hx
    have hx : (⟨main, src, lineIndex src, 0⟩ : Slot) = x := Option.some.inj hx
    subst hx
    exact ⟨if_pos rfl, rfl⟩
  · exact fun x hx => absurd hx (by simp [Cache.start])
  · exact fun x hx => absurd hx (by simp [Cache.start])
  · exact fun x hx => absurd hx (by simp [Cache.start])

end Dg

/-- **C165 (partial).** It holds for files without 0 bytes whose lines have fewer than 2048 bytes. -/
theorem C165_partial (main src : Str) (disk : Str → Option Str) (ps : List (Str × Int)) (i : Nat) (p : Str) (n : Int) (hi : ps[i]? = some (p, n))
    (hp : ∀ text, FileText main src disk p = some text → 0 ∉ text ∧ ∀ n l, LineOf text n l → l.length < 2048) :
    ∃ r, (Cache.lines disk (Cache.start main src) ps)[i]? = some r ∧
      ∀ l, r = some l ↔ ∃ text, FileText main src disk p = some text ∧ LineOf text n l := by
  refine ⟨_, Dg.lines_ok ps (Dg.start_ok main src disk) i p n hi, ?_⟩
  intro l
  cases hc : FileText main src disk p with
  | none => simp
  | some text =>
    have := Dg.readLine_iff (hp text hc) n l
    show readLine (lineIndex text) n = some l ↔ _
    rw [this]
    exact ⟨fun h => ⟨text, rfl, h⟩, fun ⟨t, ht, h⟩ => by cases ht; exact h⟩

example : Cache.lines (fun p => if p = [98] then some [120, 10, 121] else none) (Cache.start [97] [97, 10, 99, 10]) [([97], 2), ([98], 2), ([97], 3), ([98], 3)] =
    [some [99], some [121], some [], none] := by decide

/-! ## C166: the underline -/

/-- Column in the terminal at which byte `k` (from 1 on) of the source line stands in the row above. -/
def cellOf (line : Nat) (src : Str) (k : Nat) : Nat := (sourceRow line src).length - src.length + (k - 1)

/-- Last column of a span. -/
def lastCol (column endColumn : Nat) : Nat := if endColumn > 0 then endColumn else column

/-- **C166.** The carets stand under the characters from the start to the end column, and nowhere else. -/
def C166_statement : Prop :=
  ∀ (line : Nat) (src : Str) (column endColumn : Nat), 1 ≤ line → 1 ≤ column → column ≤ lastCol column endColumn →
    (∀ c ∈ src, 32 ≤ c ∧ c < 127) → ∀ k, 1 ≤ k → k ≤ src.length →
      ((underRow column endColumn)[cellOf line src k]? = some 94 ↔ column ≤ k ∧ k ≤ lastCol column endColumn)

/-- Line 1 is `x = y`; the caret for `y` stands under the space before it. -/
theorem C166_witness : sourceRow 1 [120, 32, 61, 32, 121] = [32, 32, 49, 32, 124, 32, 120, 32, 61, 32, 121] ∧
    underRow 5 5 = [32, 32, 32, 124, 32, 32, 32, 32, 32, 94] := by decide

theorem C166_fails : ¬ C166_statement := by
  intro h
  have := (h 1 [120, 32, 61, 32, 121] 5 5 (by decide) (by decide) (by decide) (by decide) 5 (by decide) (by decide)).mpr (by decide)
  exact absurd this (by decide)

/-- **C166 (partial).** For every line the carets stand as many cells to the left of their characters as the printed line number is
longer than two characters: always at least one. Missing: that distance ought to be zero. -/
theorem C166_partial (line : Nat) (src : Str) (column endColumn : Nat) (hc : 1 ≤ column) (hl : column ≤ lastCol column endColumn) (k : Nat)
    (hk : 1 ≤ k) (shift : Nat) (hs : shift + 2 = (pad3 line).length) :
    1 ≤ shift ∧ shift ≤ cellOf line src k ∧
    ((underRow column endColumn)[cellOf line src k - shift]? = some 94 ↔ column ≤ k ∧ k ≤ lastCol column endColumn) := by
  have h3 : 3 ≤ (pad3 line).length := by
    unfold pad3
    rw [List.length_append, List.length_replicate]; omega
  have hcell : cellOf line src k = (pad3 line).length + 3 + (k - 1) := by
    unfold cellOf sourceRow
    rw [List.length_append, List.length_append]
    show (pad3 line).length + 3 + src.length - src.length + (k - 1) = _
    omega
  refine ⟨by omega, by omega, ?_⟩
  have hcs : cellOf line src k - shift = 5 + (k - 1) := by omega
  rw [hcs]
  have e1 : (if (column : Int) > 0 then (column : Int) else 1) = column := if_pos (by omega)
  have e2 : (if (endColumn : Int) > 0 then (endColumn : Int) else column) = (lastCol column endColumn : Nat) := by
    unfold lastCol
    by_cases h : endColumn > 0
    · rw [if_pos h, if_pos (by omega)]
    · rw [if_neg h, if_neg (by omega)]
  have hu : underRow column endColumn = ([32, 32, 32, 124, 32] ++ List.replicate (column - 1) 32) ++ List.replicate (lastCol column endColumn - column + 1) 94 := by
    unfold underRow
    simp only []
    rw [e1, e2, if_neg (by omega)]
    congr 2
    · congr 1; congr 1; omega
    · omega
  rw [hu]
  have hlen : (([32, 32, 32, 124, 32] : Str) ++ List.replicate (column - 1) 32).length = 5 + (column - 1) := by
    rw [List.length_append, List.length_replicate]; rfl
  by_cases hk1 : k < column
  · rw [List.getElem?_append_left (by omega), List.getElem?_append_right (by show 5 ≤ _; omega)]
    rw [List.getElem?_replicate]
    constructor
    · intro h
      rw [if_pos (by show 5 + (k - 1) - 5 < _; omega)] at h
      exact absurd (Option.some.inj h) (by decide)
    · intro h; omega
  · rw [List.getElem?_append_right (by omega), hlen, List.getElem?_replicate]
    by_cases hk2 : k ≤ lastCol column endColumn
    · rw [if_pos (by omega)]
      exact ⟨fun _ => ⟨by omega, hk2⟩, fun _ => rfl⟩
    · rw [if_neg (by omega)]
      exact ⟨fun h => absurd h (by simp), fun h => absurd h.2 hk2⟩

example : pad3 7 = [32, 32, 55] ∧ pad3 1234 = [49, 50, 51, 52] ∧ lastCol 3 0 = 3 := by decide

end Verif.Props
