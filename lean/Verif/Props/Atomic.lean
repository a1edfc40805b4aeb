import Verif.Model.Atomic

/-!
# C238 and C239: the atomic operations are atomic
-/

namespace Verif.Props

open Verif.Atomic

namespace At

theorem low_put (s : Size) (c : Word) (v : BitVec s.bits) : low s (put s c v) = v := by
  apply BitVec.eq_of_getLsbD_eq
  intro i hi
  have h : i < 64 := by cases s <;> simp [Size.bits] at hi <;> omega
  simp [low, put, hi, h]

theorem low_ext (s : Size) (v : BitVec s.bits) : low s (v.setWidth 64) = v := by
  apply BitVec.eq_of_getLsbD_eq
  intro i hi
  have h : i < 64 := by cases s <;> simp [Size.bits] at hi <;> omega
  simp [low, hi, h]

theorem low_wr (s : Size) (r : Word) (v : BitVec s.bits) : low s (X86.wr s r v) = v := by
  unfold X86.wr
  split
  · exact low_put s r v
  · exact low_ext s v

/-- What a call does to its cell. -/
def effect (c : Call) (w : Word) : Word :=
  match c.fn with
  | .load => w
  | .store => put c.size w (low c.size c.a)
  | .add => put c.size w (low c.size w + low c.size c.a)
  | .sub => put c.size w (low c.size w - low c.size c.a)
  | .cas => if low c.size w = low c.size c.a then put c.size w (low c.size c.b) else w
  | .exchange => put c.size w (low c.size c.a)
  | .bit o => put c.size w (o.op (low c.size w) (low c.size c.a))

/-- What a call does to memory. -/
def apply (c : Call) (m : Mem) : Mem := fun x => if x = c.addr then effect c (m c.addr) else m x

/-- A result register holds what the call is to return if its cell was `w`. -/
def Result (c : Call) (w r : Word) : Prop :=
  match c.fn with
  | .store => True
  | .cas => low .b8 r = if low c.size w = low c.size c.a then 1 else 0
  | _ => low c.size r = low c.size w

/-- Memory after some calls, one after the other. -/
def seq (cs : Nat → Call) (m : Mem) : List Nat → Mem
  | [] => m
  | i :: l => seq cs (apply (cs i) m) l

theorem seq_append (cs : Nat → Call) : ∀ (l k : List Nat) (m : Mem), seq cs m (l ++ k) = seq cs (seq cs m l) k
  | [], _, _ => rfl
  | _ :: l, k, m => seq_append cs l k _

theorem apply_id {c : Call} {m : Mem} (h : effect c (m c.addr) = m c.addr) : apply c m = m := by
  funext x
  unfold apply
  split
  · rename_i hx; rw [h, hx]
  · rfl

theorem apply_poke {f : Fn} {z : Size} {x : Addr} {a b : Word} {m : Mem} {v : BitVec z.bits}
    (h : effect ⟨f, z, x, a, b⟩ (m x) = put z (m x) v) : poke m x z v = apply ⟨f, z, x, a, b⟩ m := by
  funext y
  unfold apply poke
  simp only [h]

end At

/-! ### x86-64 -/

namespace X86

open Verif.Atomic.X86 At

/-- A call that has not taken effect. -/
def Before (c : Call) (t : Thread) : Prop :=
  match c.fn with
  | .load => t.buf = [] ∧ (t.pc = 0 ∨ t.pc = 1)
  | .store => (t.buf = [] ∧ (t.pc = 0 ∨ t.pc = 1) ∧ t.reg .rsi = c.a) ∨ (t.pc = 2 ∧ t.buf = [⟨c.addr, c.size, low c.size c.a⟩])
  | .add => t.buf = [] ∧ ((t.pc = 0 ∧ t.reg .rsi = c.a) ∨ (t.pc = 1 ∧ low c.size (t.reg .rax) = low c.size c.a))
  | .sub => t.buf = [] ∧ ((t.pc = 0 ∧ t.reg .rsi = c.a) ∨ (t.pc = 1 ∧ low c.size (t.reg .rsi) = - low c.size c.a) ∨
      (t.pc = 2 ∧ low c.size (t.reg .rax) = - low c.size c.a))
  | .cas => t.buf = [] ∧ t.reg .rdx = c.b ∧ ((t.pc = 0 ∧ t.reg .rsi = c.a) ∨ (t.pc = 1 ∧ low c.size (t.reg .rax) = low c.size c.a))
  | .exchange => t.buf = [] ∧ ((t.pc = 0 ∧ t.reg .rsi = c.a) ∨ (t.pc = 1 ∧ low c.size (t.reg .rax) = low c.size c.a))
  | .bit o => t.buf = [] ∧ t.reg .rsi = c.a ∧ (t.pc = 0 ∨ t.pc = 1 ∨ (t.pc = 2 ∧ low c.size (t.reg .rcx) = low c.size (t.reg .rax)) ∨
      (t.pc = 3 ∧ low c.size (t.reg .rcx) = o.op (low c.size (t.reg .rax)) (low c.size c.a)) ∨ (t.pc = 4 ∧ t.zf = false))

/-- A call that has taken effect when its cell was `w`. -/
def After (c : Call) (w : Word) (t : Thread) : Prop :=
  t.buf = [] ∧
  match c.fn with
  | .load => (t.pc = 2 ∨ t.pc = 3) ∧ low c.size (t.reg .rax) = low c.size w
  | .store => t.pc = 2 ∨ t.pc = 3
  | .add => t.pc = 2 ∧ low c.size (t.reg .rax) = low c.size w
  | .sub => t.pc = 3 ∧ low c.size (t.reg .rax) = low c.size w
  | .cas => (t.pc = 2 ∧ t.zf = decide (low c.size w = low c.size c.a)) ∨
      ((t.pc = 3 ∨ t.pc = 4) ∧ low .b8 (t.reg .rax) = if low c.size w = low c.size c.a then 1 else 0)
  | .exchange => (t.pc = 2 ∨ (c.size = .b8 ∧ t.pc = 3)) ∧ low c.size (t.reg .rax) = low c.size w
  | .bit _ => ((t.pc = 4 ∧ t.zf = true) ∨ t.pc = 5) ∧ low c.size (t.reg .rax) = low c.size w

theorem bit_neg {n : Nat} (a b : BitVec n) : a + -b = a - b := by rw [BitVec.sub_eq_add_neg]

theorem bit_after (c : Call) (o : Bit) (hc : c.fn = .bit o) (w : Word) (t : Thread) :
    After c w t ↔ t.buf = [] ∧ ((t.pc = 4 ∧ t.zf = true) ∨ t.pc = 5) ∧ low c.size (t.reg .rax) = low c.size w := by
  unfold After; rw [hc]

/-- One instruction before the effect: nothing is seen of it, or it is the effect. -/
theorem exec_before {c : Call} {m m' : Mem} {t t' : Thread} (hb : Before c t) (h : exec c m t = some (m', t')) :
    (m' = m ∧ Before c t') ∨ (m' = apply c m ∧ After c (m c.addr) t') := by
  obtain ⟨fn, sz, ad, a, b⟩ := c
  cases fn with
  | load =>
    obtain ⟨h1, h2 | h2⟩ := hb
    · simp [exec, code, h1, h2] at h
      obtain ⟨rfl, rfl⟩ := h
      exact Or.inl ⟨rfl, rfl, Or.inr rfl⟩
    · simp [exec, code, h1, h2] at h
      obtain ⟨rfl, rfl⟩ := h
      exact Or.inr ⟨(apply_id rfl).symm, rfl, Or.inl rfl, by simp [view, h1, low_ext]⟩
  | store =>
    rcases hb with ⟨h1, h2 | h2, h3⟩ | ⟨h1, h2⟩
    · simp [exec, code, h1, h2] at h
      obtain ⟨rfl, rfl⟩ := h
      exact Or.inl ⟨rfl, Or.inl ⟨rfl, Or.inr rfl, h3⟩⟩
    · simp [exec, code, h1, h2] at h
      obtain ⟨rfl, rfl⟩ := h
      exact Or.inl ⟨rfl, Or.inr ⟨rfl, by simp [h3]⟩⟩
    · simp [exec, code, h1, h2] at h
  | add =>
    obtain ⟨h1, ⟨h2, h3⟩ | ⟨h2, h3⟩⟩ := hb
    · simp [exec, code, h1, h2] at h
      obtain ⟨rfl, rfl⟩ := h
      exact Or.inl ⟨rfl, h1, Or.inr ⟨by simp [Thread.set, h2], by simp [Thread.set, low_wr, h3]⟩⟩
    · simp [exec, code, h1, h2] at h
      obtain ⟨rfl, rfl⟩ := h
      exact Or.inr ⟨apply_poke (by simp [effect, h3]), h1, by simp [Thread.set, h2], by simp [Thread.set, low_wr]⟩
  | sub =>
    obtain ⟨h1, ⟨h2, h3⟩ | ⟨h2, h3⟩ | ⟨h2, h3⟩⟩ := hb
    · simp [exec, code, h2] at h
      obtain ⟨rfl, rfl⟩ := h
      exact Or.inl ⟨rfl, h1, Or.inr (Or.inl ⟨by simp [Thread.set, h2], by simp [Thread.set, low_wr, h3]⟩)⟩
    · simp [exec, code, h2] at h
      obtain ⟨rfl, rfl⟩ := h
      exact Or.inl ⟨rfl, h1, Or.inr (Or.inr ⟨by simp [Thread.set, h2], by simp [Thread.set, low_wr]; exact h3⟩)⟩
    · simp [exec, code, h1, h2] at h
      obtain ⟨rfl, rfl⟩ := h
      refine Or.inr ⟨apply_poke ?_, h1, by simp [Thread.set, h2], by simp [Thread.set, low_wr]⟩
      show put sz _ (low sz _ - low sz a) = put sz _ (low sz _ + low sz _)
      rw [h3, bit_neg]
  | cas =>
    obtain ⟨h1, h4, ⟨h2, h3⟩ | ⟨h2, h3⟩⟩ := hb
    · simp [exec, code, h1, h2] at h
      obtain ⟨rfl, rfl⟩ := h
      exact Or.inl ⟨rfl, h1, by simp [Thread.set, h4], Or.inr ⟨by simp [Thread.set, h2], by simp [Thread.set, low_wr, h3]⟩⟩
    · simp only [exec, code, h1, h2, List.isEmpty_nil, if_true] at h
      simp only [List.getElem?_cons_succ, List.getElem?_cons_zero] at h
      by_cases he : low sz (m ad) = low sz (t.reg .rax)
      · rw [if_pos he] at h
        simp only [Option.some.injEq, Prod.mk.injEq] at h
        obtain ⟨rfl, rfl⟩ := h
        rw [h3] at he
        exact Or.inr ⟨apply_poke (by simp [effect, he, h4]), rfl, Or.inl ⟨by simp, by simp [he]⟩⟩
      · rw [if_neg he] at h
        simp only [Option.some.injEq, Prod.mk.injEq] at h
        obtain ⟨rfl, rfl⟩ := h
        rw [h3] at he
        exact Or.inr ⟨(apply_id (by simp [effect, he])).symm, h1, Or.inl ⟨by simp [Thread.set, h2], by simp [he]⟩⟩
  | exchange =>
    obtain ⟨h1, ⟨h2, h3⟩ | ⟨h2, h3⟩⟩ := hb
    · have hc : (code sz .exchange)[t.pc]? = some (.mov .rsi .rax) := by rw [h2]; cases sz <;> rfl
      simp only [exec, hc, Option.some.injEq, Prod.mk.injEq] at h
      obtain ⟨rfl, rfl⟩ := h
      exact Or.inl ⟨rfl, h1, Or.inr ⟨by simp [Thread.set, h2], by simp [Thread.set, low_wr, h3]⟩⟩
    · have hc : (code sz .exchange)[t.pc]? = some (.xchg .rax) := by rw [h2]; cases sz <;> rfl
      simp only [exec, hc, h1, List.isEmpty_nil, if_true, Option.some.injEq, Prod.mk.injEq] at h
      obtain ⟨rfl, rfl⟩ := h
      exact Or.inr ⟨apply_poke (by simp [effect, h3]), h1, Or.inl (by simp [Thread.set, h2]), by simp [Thread.set, low_wr]⟩
  | bit o =>
    obtain ⟨h1, h4, h2 | h2 | ⟨h2, h3⟩ | ⟨h2, h3⟩ | ⟨h2, h3⟩⟩ := hb
    · simp [exec, code, h2] at h
      obtain ⟨rfl, rfl⟩ := h
      exact Or.inl ⟨rfl, h1, by simp [h4], Or.inr (Or.inl rfl)⟩
    · simp [exec, code, h2] at h
      obtain ⟨rfl, rfl⟩ := h
      exact Or.inl ⟨rfl, h1, by simp [Thread.set, h4], Or.inr (Or.inr (Or.inl ⟨by simp [Thread.set, h2], by simp [Thread.set, low_wr]⟩))⟩
    · simp [exec, code, h2] at h
      obtain ⟨rfl, rfl⟩ := h
      refine Or.inl ⟨rfl, h1, by simp [Thread.set, h4], Or.inr (Or.inr (Or.inr (Or.inl ⟨by simp [Thread.set, h2], ?_⟩)))⟩
      simp [Thread.set, low_wr, h4]
      exact congrArg (o.op · _) h3
    · simp only [exec, code, h1, h2, List.isEmpty_nil, if_true] at h
      simp only [List.getElem?_cons_succ, List.getElem?_cons_zero] at h
      by_cases he : low sz (m ad) = low sz (t.reg .rax)
      · rw [if_pos he] at h
        simp only [Option.some.injEq, Prod.mk.injEq] at h
        obtain ⟨rfl, rfl⟩ := h
        exact Or.inr ⟨apply_poke (by simp only [effect, h3, he]), rfl, Or.inl ⟨by simp, rfl⟩, he.symm⟩
      · rw [if_neg he] at h
        simp only [Option.some.injEq, Prod.mk.injEq] at h
        obtain ⟨rfl, rfl⟩ := h
        exact Or.inl ⟨rfl, h1, by simp [Thread.set, h4], Or.inr (Or.inr (Or.inr (Or.inr ⟨by simp [Thread.set, h2], rfl⟩)))⟩
    · simp [exec, code, h2, h3] at h
      obtain ⟨rfl, rfl⟩ := h
      exact Or.inl ⟨rfl, h1, h4, Or.inr (Or.inl rfl)⟩

/-- An instruction after the effect changes nothing in memory. -/
theorem exec_after {c : Call} {m m' : Mem} {t t' : Thread} {w : Word} (ha : After c w t) (h : exec c m t = some (m', t')) :
    m' = m ∧ After c w t' := by
  obtain ⟨fn, sz, ad, a, b⟩ := c
  cases fn with
  | load =>
    obtain ⟨h1, h2 | h2, h3⟩ := ha <;> simp [exec, code, h1, h2] at h
    obtain ⟨rfl, rfl⟩ := h
    exact ⟨rfl, rfl, Or.inr rfl, h3⟩
  | store =>
    obtain ⟨h1, h2 | h2⟩ := ha <;> simp [exec, code, h1, h2] at h
    obtain ⟨rfl, rfl⟩ := h
    exact ⟨rfl, rfl, Or.inr rfl⟩
  | add => obtain ⟨h1, h2, h3⟩ := ha; simp [exec, code, h2] at h
  | sub => obtain ⟨h1, h2, h3⟩ := ha; simp [exec, code, h2] at h
  | cas =>
    obtain ⟨h1, ⟨h2, h3⟩ | ⟨h2 | h2, h3⟩⟩ := ha <;> simp [exec, code, h2] at h
    · obtain ⟨rfl, rfl⟩ := h
      refine ⟨rfl, h1, Or.inr ⟨Or.inl (by simp [Thread.set, h2]), ?_⟩⟩
      simp only [Thread.set, if_true, low_wr]
      rw [h3]
      by_cases he : low sz w = low sz a <;> simp [he]
    · obtain ⟨rfl, rfl⟩ := h
      refine ⟨rfl, h1, Or.inr ⟨Or.inr rfl, ?_⟩⟩
      simp only [if_true, low_ext]
      exact h3
  | exchange =>
    obtain ⟨h1, h2 | ⟨h4, h2⟩, h3⟩ := ha
    · cases sz <;> simp [exec, code, h2] at h
      obtain ⟨rfl, rfl⟩ := h
      refine ⟨rfl, h1, Or.inr ⟨rfl, rfl⟩, ?_⟩
      simp only [if_true, low_ext]
      exact h3
    · subst h4
      simp [exec, code, h2] at h
  | bit o =>
    obtain ⟨h1, ⟨h2, h4⟩ | h2, h3⟩ := ha
    · simp [exec, code, h2, h4] at h
      obtain ⟨rfl, rfl⟩ := h
      exact ⟨rfl, h1, Or.inr rfl, h3⟩
    · simp [exec, code, h2] at h

/-- A store reaches memory. -/
theorem flush_before {c : Call} {m m' : Mem} {t t' : Thread} (hb : Before c t) (h : flush m t = some (m', t')) :
    m' = apply c m ∧ After c (m c.addr) t' := by
  have hn : t.buf ≠ [] := fun hn => by simp [flush, hn] at h
  obtain ⟨fn, sz, ad, a, b⟩ := c
  cases fn <;> first | (exact absurd hb.1 hn; done) | skip
  rcases hb with ⟨h1, -⟩ | ⟨h1, h2⟩
  · exact absurd h1 hn
  · simp only [flush, h2, Option.some.injEq, Prod.mk.injEq] at h
    obtain ⟨rfl, rfl⟩ := h
    exact ⟨apply_poke rfl, rfl, Or.inl h1⟩

theorem flush_after {c : Call} {m m' : Mem} {t t' : Thread} {w : Word} (ha : After c w t) (h : flush m t = some (m', t')) : False := by
  simp [flush, ha.1] at h

/-- The calls take effect one after the other, in the order of a list. -/
structure Ordered (cs : Nat → Call) (m : Mem) (s : State) (l : List Nat) : Prop where
  nodup : l.Nodup
  mem : s.mem = seq cs m l
  before : ∀ i, i ∉ l → Before (cs i) (s.thread i)
  after : ∀ i k r, l = k ++ i :: r → After (cs i) (seq cs m k (cs i).addr) (s.thread i)

theorem ordered_start {cs : Nat → Call} {s : State} (h : ∀ i, Start (cs i) (s.thread i)) : Ordered cs s.mem s [] := by
  refine ⟨List.nodup_nil, rfl, fun i _ => ?_, fun i k r hl => by simp at hl⟩
  obtain ⟨h1, h2, h3, h4⟩ := h i
  unfold Before
  cases (cs i).fn <;> simp [h1, h2, h3, h4]

theorem ordered_keep {cs : Nat → Call} {m : Mem} {s : State} {l : List Nat} (ho : Ordered cs m s l) {i : Nat} {t : Thread}
    (hb : i ∉ l → Before (cs i) t) (ha : ∀ k r, l = k ++ i :: r → After (cs i) (seq cs m k (cs i).addr) t) :
    Ordered cs m ⟨s.mem, fun j => if j = i then t else s.thread j⟩ l := by
  refine ⟨ho.nodup, ho.mem, fun j hj => ?_, fun j k r hl => ?_⟩
  · by_cases e : j = i
    · subst e; simpa using hb hj
    · simpa [e] using ho.before j hj
  · by_cases e : j = i
    · subst e; simpa using ha k r hl
    · simpa [e] using ho.after j k r hl

theorem split_last {l k r : List Nat} {i j : Nat} (h : l ++ [i] = k ++ j :: r) : (r = [] ∧ k = l ∧ j = i) ∨ ∃ r', r = r' ++ [i] ∧ l = k ++ j :: r' := by
  rcases List.eq_nil_or_concat r with rfl | ⟨r', x, rfl⟩
  · have := List.append_inj' h rfl
    simp at this
    exact Or.inl ⟨rfl, this.1.symm, this.2.symm⟩
  · rw [List.concat_eq_append] at h ⊢
    have h' : l ++ [i] = (k ++ j :: r') ++ [x] := by simpa using h
    have := List.append_inj' h' rfl
    simp at this
    exact Or.inr ⟨r', by rw [this.2], this.1⟩

theorem ordered_add {cs : Nat → Call} {m : Mem} {s : State} {l : List Nat} (ho : Ordered cs m s l) {i : Nat} {t : Thread} (hi : i ∉ l)
    (ha : After (cs i) (s.mem (cs i).addr) t) : Ordered cs m ⟨apply (cs i) s.mem, fun j => if j = i then t else s.thread j⟩ (l ++ [i]) := by
  refine ⟨?_, ?_, fun j hj => ?_, fun j k r hl => ?_⟩
  · rw [List.nodup_append]
    exact ⟨ho.nodup, by simp, fun a h1 b h2 => by simp at h2; subst h2; exact fun e => hi (e ▸ h1)⟩
  · rw [seq_append, ho.mem]; rfl
  · have e : j ≠ i := fun e => hj (by simp [e])
    simpa [e] using ho.before j fun h => hj (by simp [h])
  · rcases split_last hl with ⟨rfl, rfl, rfl⟩ | ⟨r', rfl, hl'⟩
    · rw [← ho.mem]; simpa using ha
    · have e : j ≠ i := fun e => hi (by rw [hl', e]; simp)
      simpa [e] using ho.after j k r' hl'

theorem ordered_step {cs : Nat → Call} {m : Mem} {s s' : State} {l : List Nat} (ho : Ordered cs m s l) (h : Step cs s s') :
    ∃ l', l <+: l' ∧ Ordered cs m s' l' := by
  cases h with
  | @exec i m' t h =>
    by_cases hi : i ∈ l
    · obtain ⟨k, r, hl⟩ := List.append_of_mem hi
      obtain ⟨rfl, h2⟩ := exec_after (ho.after i k r hl) h
      refine ⟨l, List.prefix_rfl, ordered_keep ho (fun hn => absurd hi hn) fun k' r' hl' => ?_⟩
      exact (exec_after (ho.after i k' r' hl') h).2
    · rcases exec_before (ho.before i hi) h with ⟨rfl, h2⟩ | ⟨rfl, h2⟩
      · exact ⟨l, List.prefix_rfl, ordered_keep ho (fun _ => h2) fun k r hl => absurd (by rw [hl]; simp) hi⟩
      · exact ⟨l ++ [i], List.prefix_append _ _, ordered_add ho hi h2⟩
  | @flush i m' t h =>
    by_cases hi : i ∈ l
    · obtain ⟨k, r, hl⟩ := List.append_of_mem hi
      exact (flush_after (ho.after i k r hl) h).elim
    · obtain ⟨rfl, h2⟩ := flush_before (ho.before i hi) h
      exact ⟨l ++ [i], List.prefix_append _ _, ordered_add ho hi h2⟩

theorem before_not_returned {c : Call} {t : Thread} (h : Before c t) : ¬ returned c t := by
  obtain ⟨fn, sz, ad, a, b⟩ := c
  intro hr
  unfold returned at hr
  cases fn with
  | load => obtain ⟨-, h | h⟩ := h <;> simp [code, h] at hr
  | store => rcases h with ⟨-, h | h, -⟩ | ⟨h, -⟩ <;> simp [code, h] at hr
  | add => obtain ⟨-, ⟨h, -⟩ | ⟨h, -⟩⟩ := h <;> simp [code, h] at hr
  | sub => obtain ⟨-, ⟨h, -⟩ | ⟨h, -⟩ | ⟨h, -⟩⟩ := h <;> simp [code, h] at hr
  | cas => obtain ⟨-, -, ⟨h, -⟩ | ⟨h, -⟩⟩ := h <;> simp [code, h] at hr
  | exchange => obtain ⟨-, ⟨h, -⟩ | ⟨h, -⟩⟩ := h <;> cases sz <;> simp [code, h] at hr
  | bit o => obtain ⟨-, -, h | h | ⟨h, -⟩ | ⟨h, -⟩ | ⟨h, -⟩⟩ := h <;> simp [code, h] at hr

theorem after_result {c : Call} {w : Word} {t : Thread} (h : After c w t) (hr : returned c t) : Result c w (t.reg .rax) := by
  obtain ⟨fn, sz, ad, a, b⟩ := c
  unfold returned at hr
  cases fn with
  | load => exact h.2.2
  | store => exact trivial
  | add => exact h.2.2
  | sub => exact h.2.2
  | cas =>
    obtain ⟨-, ⟨h, -⟩ | ⟨-, h⟩⟩ := h
    · simp [code, h] at hr
    · exact h
  | exchange => exact h.2.2
  | bit o => exact h.2.2

theorem after_start {c : Call} {w : Word} {t : Thread} (h : After c w t) : t.pc ≠ 0 := by
  obtain ⟨fn, sz, ad, a, b⟩ := c
  cases fn with
  | load => obtain ⟨-, h | h, -⟩ := h <;> omega
  | store => obtain ⟨-, h | h⟩ := h <;> omega
  | add => obtain ⟨-, h, -⟩ := h; omega
  | sub => obtain ⟨-, h, -⟩ := h; omega
  | cas => obtain ⟨-, ⟨h, -⟩ | ⟨h | h, -⟩⟩ := h <;> omega
  | exchange => obtain ⟨-, h | ⟨-, h⟩, -⟩ := h <;> omega
  | bit o => obtain ⟨-, ⟨h, -⟩ | h, -⟩ := h <;> omega

/-- A call that has not returned can go on: with its next instruction, or with a store that reaches memory. -/
theorem can_go_on {c : Call} {w : Word} {t : Thread} (h : Before c t ∨ After c w t) (m : Mem) (hr : ¬ returned c t) :
    (exec c m t).isSome ∨ (flush m t).isSome := by
  obtain ⟨fn, sz, ad, a, b⟩ := c
  unfold returned at hr
  have hx : t.pc < (code sz fn).length := by
    cases fn with
    | load => rcases h with ⟨-, h⟩ | ⟨-, h, -⟩ <;> simp [code] <;> omega
    | store => rcases h with (⟨-, h, -⟩ | ⟨h, -⟩) | ⟨-, h⟩ <;> simp [code] <;> omega
    | add => rcases h with ⟨-, h⟩ | ⟨-, h, -⟩ <;> simp [code] <;> omega
    | sub => rcases h with ⟨-, h⟩ | ⟨-, h, -⟩ <;> simp [code] <;> omega
    | cas => rcases h with ⟨-, -, h⟩ | ⟨-, h⟩ <;> simp [code] <;> omega
    | exchange =>
      rcases h with ⟨-, h⟩ | ⟨-, h, -⟩
      · cases sz <;> simp [code] <;> omega
      · rcases h with h | ⟨rfl, h⟩
        · cases sz <;> simp [code] <;> omega
        · simp [code]; omega
    | bit o => rcases h with ⟨-, -, h⟩ | ⟨-, h, -⟩ <;> simp [code] <;> omega
  cases hb : t.buf with
  | nil =>
    left
    have hx' := List.getElem?_eq_getElem hx
    unfold exec
    simp only [hx', hb, List.isEmpty_nil, if_true] at hr ⊢
    cases hi : (code sz fn)[t.pc] <;> simp_all
    split <;> rfl
  | cons e r => right; simp [flush, hb]

/-- A run: in each unit of time one step of one call, or none. -/
def Run (cs : Nat → Call) (σ : Nat → State) : Prop := (∀ i, Start (cs i) ((σ 0).thread i)) ∧ ∀ n, σ (n + 1) = σ n ∨ Step cs (σ n) (σ (n + 1))

theorem ordered_next {cs : Nat → Call} {σ : Nat → State} (h : Run cs σ) (n : Nat) (l : { l // Ordered cs (σ 0).mem (σ n) l }) :
    ∃ l', l.1 <+: l' ∧ Ordered cs (σ 0).mem (σ (n + 1)) l' := by
  rcases h.2 n with e | e
  · exact ⟨l.1, List.prefix_rfl, by rw [e]; exact l.2⟩
  · exact ordered_step l.2 e

/-- The orders of a run, one for each time. -/
noncomputable def orders {cs : Nat → Call} {σ : Nat → State} (h : Run cs σ) : (n : Nat) → { l // Ordered cs (σ 0).mem (σ n) l }
  | 0 => ⟨[], ordered_start h.1⟩
  | n + 1 => ⟨(ordered_next h n (orders h n)).choose, (ordered_next h n (orders h n)).choose_spec.2⟩

end X86

/-! ### ARM64 -/

namespace Arm

open Verif.Atomic.Arm At

/-- For the two-operand functions: the new contents of a cell. -/
def comb (c : Call) (x y : BitVec c.size.bits) : BitVec c.size.bits :=
  match c.fn with
  | .add => x + y
  | .sub => x - y
  | .bit o => o.op x y
  | _ => y

def BeforeLoop (c : Call) (v : Word) (t : Thread) : Prop :=
  t.reg .x1 = c.a ∧ (t.pc = 0 ∨ (t.pc = 1 ∧ (t.mon = true → low c.size (t.reg .x2) = low c.size v)) ∨
    (t.pc = 2 ∧ low c.size (t.reg .x3) = comb c (low c.size (t.reg .x2)) (low c.size c.a) ∧ (t.mon = true → low c.size (t.reg .x2) = low c.size v)) ∨
    (t.pc = 3 ∧ t.reg .x4 = 1))

def AfterLoop (c : Call) (w : Word) (t : Thread) : Prop :=
  ((t.pc = 3 ∧ t.reg .x4 = 0) ∨ t.pc = 4 ∨ t.pc = 5) ∧ low c.size (t.reg .x2) = low c.size w ∨ t.pc = 6 ∧ low c.size (t.reg .x0) = low c.size w

/-- A call that has not taken effect; its cell is `v`. -/
def Before (c : Call) (v : Word) (t : Thread) : Prop :=
  match c.fn with
  | .load => t.pc = 0 ∨ t.pc = 1
  | .store => (t.pc = 0 ∨ t.pc = 1) ∧ t.reg .x1 = c.a
  | .cas => t.reg .x1 = c.a ∧ t.reg .x2 = c.b ∧ (t.pc = 0 ∨
      (t.pc = 1 ∧ low (cmpSize c.size) (t.reg .x3) = low (cmpSize c.size) c.a ∧ (t.mon = true → low c.size v = low c.size c.a)) ∨
      (t.pc = 2 ∧ t.zf = true ∧ (t.mon = true → low c.size v = low c.size c.a)) ∨
      (t.pc = 3 ∧ (t.mon = true → low c.size v = low c.size c.a)) ∨ (t.pc = 4 ∧ t.reg .x4 = 1))
  | .exchange => t.reg .x1 = c.a ∧ (t.pc = 0 ∨ (t.pc = 1 ∧ (t.mon = true → low c.size (t.reg .x2) = low c.size v)) ∨ (t.pc = 2 ∧ t.reg .x3 = 1))
  | _ => BeforeLoop c v t

/-- A call that has taken effect when its cell was `w`. -/
def After (c : Call) (w : Word) (t : Thread) : Prop :=
  match c.fn with
  | .load => (t.pc = 2 ∨ t.pc = 3) ∧ low c.size (t.reg .x0) = low c.size w
  | .store => t.pc = 2 ∨ t.pc = 3
  | .cas =>
      if low c.size w = low c.size c.a then (t.pc = 4 ∧ t.reg .x4 = 0) ∨ t.pc = 5 ∨ t.pc = 6 ∨ (t.pc = 7 ∧ t.reg .x0 = 1)
      else (t.pc = 1 ∧ t.reg .x1 = c.a ∧ low (cmpSize c.size) (t.reg .x3) ≠ low (cmpSize c.size) c.a) ∨ (t.pc = 2 ∧ t.zf = false) ∨
        t.pc = 8 ∨ t.pc = 9 ∨ t.pc = 10 ∨ (t.pc = 11 ∧ t.reg .x0 = 0)
  | .exchange =>
      (((t.pc = 2 ∧ t.reg .x3 = 0) ∨ t.pc = 3 ∨ t.pc = 4) ∧ low c.size (t.reg .x2) = low c.size w) ∨
        (t.pc = 5 ∧ low c.size (t.reg .x0) = low c.size w)
  | _ => AfterLoop c w t

/-- The expected value of a byte has nothing in the bits of its register that `cmp` also looks at. -/
def Clean (c : Call) : Prop := c.fn = .cas → low (cmpSize c.size) ((low c.size c.a).setWidth 64) = low (cmpSize c.size) c.a

theorem before_clear {c : Call} {v v' : Word} {t : Thread} (h : Before c v t) : Before c v' { t with mon := false } := by
  obtain ⟨fn, sz, ad, a, b⟩ := c
  cases fn with
  | load => exact h
  | store => exact h
  | cas => obtain ⟨h1, h2, h | ⟨h, h3, -⟩ | ⟨h, h3, -⟩ | ⟨h, -⟩ | h⟩ := h <;> simp [Before, h1, h2, h, *]
  | exchange => obtain ⟨h1, h | ⟨h, -⟩ | h⟩ := h <;> simp [Before, h1, h]
  | _ => obtain ⟨h1, h | ⟨h, -⟩ | ⟨h, h3, -⟩ | h⟩ := h <;> simp [Before, BeforeLoop, h1, h, *]

theorem after_clear {c : Call} {w : Word} {t : Thread} (h : After c w t) : After c w { t with mon := false } := by
  obtain ⟨fn, sz, ad, a, b⟩ := c
  cases fn <;> exact h

theorem exec_elsewhere {c : Call} {ok : Bool} {m m' : Mem} {t t' : Thread} {w : Bool} (h : exec c ok m t = some (m', t', w)) :
    (w = false → m' = m) ∧ ∀ x, x ≠ c.addr → m' x = m x := by
  unfold exec at h
  split at h <;> first
    | (simp only [Option.some.injEq, Prod.mk.injEq] at h; obtain ⟨rfl, rfl, rfl⟩ := h; simp [poke]; done)
    | (simp only [Option.some.injEq, Prod.mk.injEq] at h; obtain ⟨rfl, rfl, rfl⟩ := h; exact ⟨fun e => by simp at e, fun x hx => by simp [poke, hx]⟩)
    | (cases h; done)
    | skip
  split at h
  · simp only [Option.some.injEq, Prod.mk.injEq] at h
    obtain ⟨rfl, rfl, rfl⟩ := h
    exact ⟨fun e => by simp at e, fun x hx => by simp [poke, hx]⟩
  · simp only [Option.some.injEq, Prod.mk.injEq] at h
    obtain ⟨rfl, rfl, rfl⟩ := h
    exact ⟨fun _ => rfl, fun x hx => rfl⟩

theorem mov0 (z : Size) (v : BitVec z.bits) : low z (v.setWidth 64) = v := low_ext z v

/-- The code of the functions with a loop that are alike. -/
def arith (c : Call) (i : Ins) : Prop :=
  (code c.fn = [.ldxr .x2, i, .stlxr .x4 .x3, .cbnz .x4 0, .dmb, .mov .x0 .x2, .ret]) ∧
  (∀ ok m t, (code c.fn)[t.pc]? = some i → exec c ok m t =
    some (m, t.set .x3 ((comb c (low c.size (t.reg .x2)) (low c.size (t.reg .x1))).setWidth 64), false)) ∧
  ∀ w, effect c w = put c.size w (comb c (low c.size w) (low c.size c.a))

theorem arith_add (sz : Size) (ad : Addr) (a b : Word) : arith ⟨.add, sz, ad, a, b⟩ (.add .x3 .x2 .x1) :=
  ⟨rfl, fun ok m t h => by unfold exec; simp only [h]; rfl, fun _ => rfl⟩

theorem arith_sub (sz : Size) (ad : Addr) (a b : Word) : arith ⟨.sub, sz, ad, a, b⟩ (.sub .x3 .x2 .x1) :=
  ⟨rfl, fun ok m t h => by unfold exec; simp only [h]; rfl, fun _ => rfl⟩

theorem arith_bit (o : Bit) (sz : Size) (ad : Addr) (a b : Word) : arith ⟨.bit o, sz, ad, a, b⟩ (.bit o .x3 .x2 .x1) :=
  ⟨rfl, fun ok m t h => by unfold exec; simp only [h]; rfl, fun _ => rfl⟩

theorem loop_before {fn : Fn} {sz : Size} {ad : Addr} {a b : Word} {i : Ins} (hc : arith ⟨fn, sz, ad, a, b⟩ i) {ok : Bool} {m m' : Mem}
    {t t' : Thread} {w : Bool} (hb : BeforeLoop ⟨fn, sz, ad, a, b⟩ (m ad) t) (h : exec ⟨fn, sz, ad, a, b⟩ ok m t = some (m', t', w)) :
    (m' = m ∧ BeforeLoop ⟨fn, sz, ad, a, b⟩ (m ad) t') ∨ (m' = apply ⟨fn, sz, ad, a, b⟩ m ∧ AfterLoop ⟨fn, sz, ad, a, b⟩ (m ad) t') := by
  obtain ⟨h0, hE, hP⟩ := hc
  simp only at h0
  obtain ⟨h1, h2 | ⟨h2, h3⟩ | ⟨h2, h3, h4⟩ | ⟨h2, h3⟩⟩ := hb
  · simp [exec, h0, h2] at h
    obtain ⟨rfl, rfl, -⟩ := h
    exact Or.inl ⟨rfl, by simp [Thread.set, h1], Or.inr (Or.inl ⟨by simp [Thread.set, h2], fun _ => by simp [Thread.set, low_ext]⟩)⟩
  · rw [hE ok m t (by simp [h0, h2])] at h
    simp only [Option.some.injEq, Prod.mk.injEq] at h
    obtain ⟨rfl, rfl, -⟩ := h
    refine Or.inl ⟨rfl, by simp [Thread.set, h1], Or.inr (Or.inr (Or.inl ⟨by simp [Thread.set, h2], ?_, fun hm => ?_⟩))⟩
    · simp [Thread.set, low_ext, h1]
    · simpa [Thread.set] using h3 hm
  · simp only [exec, h0, h2, List.getElem?_cons_succ, List.getElem?_cons_zero] at h
    by_cases hm : (t.mon && ok) = true
    · rw [if_pos hm] at h
      simp only [Option.some.injEq, Prod.mk.injEq] at h
      obtain ⟨rfl, rfl, -⟩ := h
      have hm' := h4 (Bool.and_eq_true_iff.1 hm).1
      refine Or.inr ⟨apply_poke ?_, Or.inl ⟨Or.inl ⟨by simp [Thread.set, h2], by simp [Thread.set]⟩, by simpa [Thread.set] using hm'⟩⟩
      rw [hP]
      simp only at h3 hm' ⊢
      rw [h3, hm']
    · rw [if_neg hm] at h
      simp only [Option.some.injEq, Prod.mk.injEq] at h
      obtain ⟨rfl, rfl, -⟩ := h
      exact Or.inl ⟨rfl, by simp [Thread.set, h1], Or.inr (Or.inr (Or.inr ⟨by simp [Thread.set, h2], by simp [Thread.set]⟩))⟩
  · simp only [exec, h0, h2, List.getElem?_cons_succ, List.getElem?_cons_zero, Option.some.injEq, Prod.mk.injEq] at h
    obtain ⟨rfl, rfl, -⟩ := h
    refine Or.inl ⟨rfl, h1, Or.inl ?_⟩
    simp only [h3]
    rfl

theorem loop_after {fn : Fn} {sz : Size} {ad : Addr} {a b : Word} {i : Ins} (hc : arith ⟨fn, sz, ad, a, b⟩ i) {ok : Bool} {m m' : Mem}
    {t t' : Thread} {w : Bool} {v : Word} (hb : AfterLoop ⟨fn, sz, ad, a, b⟩ v t) (h : exec ⟨fn, sz, ad, a, b⟩ ok m t = some (m', t', w)) :
    m' = m ∧ AfterLoop ⟨fn, sz, ad, a, b⟩ v t' := by
  obtain ⟨h0, hE, hP⟩ := hc
  simp only at h0
  rcases hb with ⟨⟨h2, h4⟩ | h2 | h2, h3⟩ | ⟨h2, h3⟩
  · simp only [exec, h0, h2, List.getElem?_cons_succ, List.getElem?_cons_zero, Option.some.injEq, Prod.mk.injEq] at h
    obtain ⟨rfl, rfl, -⟩ := h
    refine ⟨rfl, Or.inl ⟨Or.inr (Or.inl ?_), h3⟩⟩
    simp only [h4]
    rfl
  · simp [exec, h0, h2] at h
    obtain ⟨rfl, rfl, -⟩ := h
    exact ⟨rfl, Or.inl ⟨Or.inr (Or.inr rfl), h3⟩⟩
  · simp [exec, h0, h2] at h
    obtain ⟨rfl, rfl, -⟩ := h
    refine ⟨rfl, Or.inr ⟨by simp [Thread.set, h2], ?_⟩⟩
    simp only [Thread.set, if_true, low_ext]
    exact h3
  · simp [exec, h0, h2] at h

theorem exec_before {c : Call} (hcl : Clean c) {ok : Bool} {m m' : Mem} {t t' : Thread} {w : Bool} (hb : Before c (m c.addr) t)
    (h : exec c ok m t = some (m', t', w)) : (m' = m ∧ Before c (m c.addr) t') ∨ (m' = apply c m ∧ After c (m c.addr) t') := by
  obtain ⟨fn, sz, ad, a, b⟩ := c
  cases fn with
  | load =>
    obtain h2 | h2 := hb
    · simp [exec, code, h2] at h
      obtain ⟨rfl, rfl, -⟩ := h
      exact Or.inl ⟨rfl, Or.inr rfl⟩
    · simp [exec, code, h2] at h
      obtain ⟨rfl, rfl, -⟩ := h
      exact Or.inr ⟨(apply_id rfl).symm, Or.inl (by simp [Thread.set, h2]), by simp [Thread.set, low_ext]⟩
  | store =>
    obtain ⟨h2 | h2, h3⟩ := hb
    · simp [exec, code, h2] at h
      obtain ⟨rfl, rfl, -⟩ := h
      exact Or.inl ⟨rfl, Or.inr rfl, h3⟩
    · simp [exec, code, h2] at h
      obtain ⟨rfl, rfl, -⟩ := h
      exact Or.inr ⟨apply_poke (by simp [effect, h3]), Or.inl rfl⟩
  | add => exact loop_before (arith_add ..) hb h
  | sub => exact loop_before (arith_sub ..) hb h
  | bit o => exact loop_before (arith_bit ..) hb h
  | exchange =>
    obtain ⟨h1, h2 | ⟨h2, h3⟩ | ⟨h2, h3⟩⟩ := hb
    · simp [exec, code, h2] at h
      obtain ⟨rfl, rfl, -⟩ := h
      exact Or.inl ⟨rfl, by simp [Thread.set, h1], Or.inr (Or.inl ⟨by simp [Thread.set, h2], fun _ => by simp [Thread.set, low_ext]⟩)⟩
    · simp only [exec, code, h2, List.getElem?_cons_succ, List.getElem?_cons_zero] at h
      by_cases hm : (t.mon && ok) = true
      · rw [if_pos hm] at h
        simp only [Option.some.injEq, Prod.mk.injEq] at h
        obtain ⟨rfl, rfl, -⟩ := h
        have hm' := h3 (Bool.and_eq_true_iff.1 hm).1
        exact Or.inr ⟨apply_poke (by simp [effect, h1]), Or.inl ⟨Or.inl ⟨by simp [Thread.set, h2], by simp [Thread.set]⟩, by simpa [Thread.set] using hm'⟩⟩
      · rw [if_neg hm] at h
        simp only [Option.some.injEq, Prod.mk.injEq] at h
        obtain ⟨rfl, rfl, -⟩ := h
        exact Or.inl ⟨rfl, by simp [Thread.set, h1], Or.inr (Or.inr ⟨by simp [Thread.set, h2], by simp [Thread.set]⟩)⟩
    · simp only [exec, code, h2, List.getElem?_cons_succ, List.getElem?_cons_zero, Option.some.injEq, Prod.mk.injEq] at h
      obtain ⟨rfl, rfl, -⟩ := h
      refine Or.inl ⟨rfl, h1, Or.inl ?_⟩
      simp only [h3]
      rfl
  | cas =>
    have hcl' := hcl rfl
    simp only at hcl'
    obtain ⟨h1, h5, h2 | ⟨h2, h3, h4⟩ | ⟨h2, h3, h4⟩ | ⟨h2, h4⟩ | ⟨h2, h3⟩⟩ := hb
    · simp [exec, code, h2] at h
      obtain ⟨rfl, rfl, -⟩ := h
      by_cases he : low sz (m ad) = low sz a
      · refine Or.inl ⟨rfl, by simp [Thread.set, h1], by simp [Thread.set, h5], Or.inr (Or.inl ⟨by simp [Thread.set, h2], ?_, fun _ => he⟩)⟩
        simp only [Thread.set, if_true, he, hcl']
      · refine Or.inr ⟨(apply_id (by simp [effect, he])).symm, ?_⟩
        simp only [After, he, if_false]
        refine Or.inl ⟨by simp [Thread.set, h2], by simp [Thread.set, h1], ?_⟩
        simp only [Thread.set, if_true]
        rw [← hcl']
        intro hh
        apply he
        have h8 : ∀ x y : BitVec sz.bits, low (cmpSize sz) (x.setWidth 64) = low (cmpSize sz) (y.setWidth 64) → x = y := by
          intro x y hxy
          apply BitVec.eq_of_getLsbD_eq
          intro i hi
          have := congrArg (fun z => z.getLsbD i) hxy
          have h64 : i < 64 := by cases sz <;> simp [Size.bits] at hi <;> omega
          have hcs : i < (cmpSize sz).bits := by cases sz <;> simp [Size.bits, cmpSize] at hi ⊢ <;> omega
          simpa [low, h64, hcs] using this
        exact h8 _ _ hh
    · simp [exec, code, h2] at h
      obtain ⟨rfl, rfl, -⟩ := h
      exact Or.inl ⟨rfl, h1, h5, Or.inr (Or.inr (Or.inl ⟨rfl, by simp only [h1, h3]; simp, h4⟩))⟩
    · simp [exec, code, h2, h3] at h
      obtain ⟨rfl, rfl, -⟩ := h
      exact Or.inl ⟨rfl, h1, h5, Or.inr (Or.inr (Or.inr (Or.inl ⟨rfl, h4⟩)))⟩
    · simp only [exec, code, h2, List.getElem?_cons_succ, List.getElem?_cons_zero] at h
      by_cases hm : (t.mon && ok) = true
      · rw [if_pos hm] at h
        simp only [Option.some.injEq, Prod.mk.injEq] at h
        obtain ⟨rfl, rfl, -⟩ := h
        have hm' := h4 (Bool.and_eq_true_iff.1 hm).1
        simp only at hm'
        refine Or.inr ⟨apply_poke (by simp [effect, hm', h5]), ?_⟩
        simp only [After, hm', if_true]
        exact Or.inl ⟨by simp [Thread.set, h2], by simp [Thread.set]⟩
      · rw [if_neg hm] at h
        simp only [Option.some.injEq, Prod.mk.injEq] at h
        obtain ⟨rfl, rfl, -⟩ := h
        exact Or.inl ⟨rfl, by simp [Thread.set, h1], by simp [Thread.set, h5], Or.inr (Or.inr (Or.inr (Or.inr ⟨by simp [Thread.set, h2], by simp [Thread.set]⟩)))⟩
    · simp only [exec, code, h2, List.getElem?_cons_succ, List.getElem?_cons_zero, Option.some.injEq, Prod.mk.injEq] at h
      obtain ⟨rfl, rfl, -⟩ := h
      refine Or.inl ⟨rfl, h1, h5, Or.inl ?_⟩
      simp only [h3]
      rfl

theorem exec_after {c : Call} {ok : Bool} {m m' : Mem} {t t' : Thread} {w : Bool} {v : Word} (ha : After c v t)
    (h : exec c ok m t = some (m', t', w)) : m' = m ∧ After c v t' := by
  obtain ⟨fn, sz, ad, a, b⟩ := c
  cases fn with
  | load =>
    obtain ⟨h2 | h2, h3⟩ := ha <;> simp [exec, code, h2] at h
    obtain ⟨rfl, rfl, -⟩ := h
    exact ⟨rfl, Or.inr rfl, h3⟩
  | store =>
    obtain h2 | h2 := ha <;> simp [exec, code, h2] at h
    obtain ⟨rfl, rfl, -⟩ := h
    exact ⟨rfl, Or.inr rfl⟩
  | add => exact loop_after (arith_add ..) ha h
  | sub => exact loop_after (arith_sub ..) ha h
  | bit o => exact loop_after (arith_bit ..) ha h
  | exchange =>
    rcases ha with ⟨⟨h2, h4⟩ | h2 | h2, h3⟩ | ⟨h2, h3⟩
    · simp only [exec, code, h2, List.getElem?_cons_succ, List.getElem?_cons_zero, Option.some.injEq, Prod.mk.injEq] at h
      obtain ⟨rfl, rfl, -⟩ := h
      refine ⟨rfl, Or.inl ⟨Or.inr (Or.inl ?_), h3⟩⟩
      simp only [h4]
      rfl
    · simp [exec, code, h2] at h
      obtain ⟨rfl, rfl, -⟩ := h
      exact ⟨rfl, Or.inl ⟨Or.inr (Or.inr rfl), h3⟩⟩
    · simp [exec, code, h2] at h
      obtain ⟨rfl, rfl, -⟩ := h
      refine ⟨rfl, Or.inr ⟨by simp [Thread.set, h2], ?_⟩⟩
      simp only [Thread.set, if_true, low_ext]
      exact h3
    · simp [exec, code, h2] at h
  | cas =>
    by_cases he : low sz v = low sz a
    · simp only [After, he, if_true] at ha ⊢
      rcases ha with ⟨h2, h4⟩ | h2 | h2 | ⟨h2, h4⟩
      · simp only [exec, code, h2, List.getElem?_cons_succ, List.getElem?_cons_zero, Option.some.injEq, Prod.mk.injEq] at h
        obtain ⟨rfl, rfl, -⟩ := h
        refine ⟨rfl, Or.inr (Or.inl ?_)⟩
        simp only [h4]
        rfl
      · simp [exec, code, h2] at h
        obtain ⟨rfl, rfl, -⟩ := h
        exact ⟨rfl, Or.inr (Or.inr (Or.inl rfl))⟩
      · simp [exec, code, h2] at h
        obtain ⟨rfl, rfl, -⟩ := h
        exact ⟨rfl, Or.inr (Or.inr (Or.inr ⟨by simp [Thread.set, h2], by simp [Thread.set]⟩))⟩
      · simp [exec, code, h2] at h
    · simp only [After, he, if_false] at ha ⊢
      rcases ha with ⟨h2, h4, h5⟩ | ⟨h2, h4⟩ | h2 | h2 | h2 | ⟨h2, h4⟩
      · simp only [exec, code, h2, List.getElem?_cons_succ, List.getElem?_cons_zero, Option.some.injEq, Prod.mk.injEq] at h
        obtain ⟨rfl, rfl, -⟩ := h
        refine ⟨rfl, Or.inr (Or.inl ⟨rfl, ?_⟩)⟩
        simp only [h4]
        exact decide_eq_false h5
      · simp [exec, code, h2, h4] at h
        obtain ⟨rfl, rfl, -⟩ := h
        exact ⟨rfl, Or.inr (Or.inr (Or.inl rfl))⟩
      · simp [exec, code, h2] at h
        obtain ⟨rfl, rfl, -⟩ := h
        exact ⟨rfl, Or.inr (Or.inr (Or.inr (Or.inl rfl)))⟩
      · simp [exec, code, h2] at h
        obtain ⟨rfl, rfl, -⟩ := h
        exact ⟨rfl, Or.inr (Or.inr (Or.inr (Or.inr (Or.inl rfl))))⟩
      · simp [exec, code, h2] at h
        obtain ⟨rfl, rfl, -⟩ := h
        exact ⟨rfl, Or.inr (Or.inr (Or.inr (Or.inr (Or.inr ⟨by simp [Thread.set, h2], by simp [Thread.set]⟩))))⟩
      · simp [exec, code, h2] at h

structure Ordered (cs : Nat → Call) (m : Mem) (s : State) (l : List Nat) : Prop where
  nodup : l.Nodup
  mem : s.mem = seq cs m l
  before : ∀ i, i ∉ l → Before (cs i) (s.mem (cs i).addr) (s.thread i)
  after : ∀ i k r, l = k ++ i :: r → After (cs i) (seq cs m k (cs i).addr) (s.thread i)

theorem ordered_start {cs : Nat → Call} {s : State} (h : ∀ i, Start (cs i) (s.thread i)) : Ordered cs s.mem s [] := by
  refine ⟨List.nodup_nil, rfl, fun i _ => ?_, fun i k r hl => by simp at hl⟩
  obtain ⟨h1, h2, h3⟩ := h i
  unfold Before BeforeLoop
  cases (cs i).fn <;> simp [h1, h2, h3]

/-- Calls that make no step. -/
theorem before_other {cs : Nat → Call} {s : State} {i j : Nat} {ok : Bool} {m' : Mem} {t : Thread} {w : Bool}
    (h : exec (cs i) ok s.mem (s.thread i) = some (m', t, w)) (hb : Before (cs j) (s.mem (cs j).addr) (s.thread j)) :
    Before (cs j) (m' (cs j).addr) (clear cs i w j (s.thread j)) := by
  obtain ⟨h1, h2⟩ := exec_elsewhere h
  unfold clear
  cases w with
  | false => simpa [h1 rfl] using hb
  | true =>
    by_cases e : (cs j).addr = (cs i).addr
    · simpa [e] using before_clear hb
    · simpa [e, h2 _ e] using hb

theorem after_other {cs : Nat → Call} {i j : Nat} {t : Thread} {w : Bool} {v : Word} (ha : After (cs j) v t) : After (cs j) v (clear cs i w j t) := by
  unfold clear
  split
  · exact after_clear ha
  · exact ha

theorem ordered_step {cs : Nat → Call} (hcl : ∀ i, Clean (cs i)) {m : Mem} {s s' : State} {l : List Nat} (ho : Ordered cs m s l)
    (h : Step cs s s') : ∃ l', l <+: l' ∧ Ordered cs m s' l' := by
  cases h with
  | @exec i ok m' t w h =>
    by_cases hi : i ∈ l
    · obtain ⟨k, r, hl⟩ := List.append_of_mem hi
      obtain ⟨hm, h2⟩ := exec_after (ho.after i k r hl) h
      refine ⟨l, List.prefix_rfl, ho.nodup, ?_, fun j hj => ?_, fun j k' r' hl' => ?_⟩
      · show m' = _; rw [hm]; exact ho.mem
      · have e : j ≠ i := fun e => hj (e ▸ hi)
        simpa [e] using before_other h (ho.before j hj)
      · by_cases e : j = i
        · subst e; simpa using (exec_after (ho.after j k' r' hl') h).2
        · simpa [e] using after_other (ho.after j k' r' hl')
    · rcases exec_before (hcl i) (ho.before i hi) h with ⟨hm, h2⟩ | ⟨hm, h2⟩
      · refine ⟨l, List.prefix_rfl, ho.nodup, ?_, fun j hj => ?_, fun j k r hl => ?_⟩
        · show m' = _; rw [hm]; exact ho.mem
        · by_cases e : j = i
          · subst e; simpa [hm] using h2
          · simpa [e] using before_other h (ho.before j hj)
        · have e : j ≠ i := fun e => hi (by rw [hl, e]; simp)
          simpa [e] using after_other (ho.after j k r hl)
      · refine ⟨l ++ [i], List.prefix_append _ _, ?_, ?_, fun j hj => ?_, fun j k r hl => ?_⟩
        · rw [List.nodup_append]
          exact ⟨ho.nodup, by simp, fun a h1 b h2 => by simp at h2; subst h2; exact fun e => hi (e ▸ h1)⟩
        · show m' = _; rw [seq_append, hm, ho.mem]; rfl
        · have e : j ≠ i := fun e => hj (by simp [e])
          simpa [e] using before_other h (ho.before j fun hh => hj (by simp [hh]))
        · rcases X86.split_last hl with ⟨rfl, rfl, rfl⟩ | ⟨r', rfl, hl'⟩
          · rw [← ho.mem]; simpa using h2
          · have e : j ≠ i := fun e => hi (by rw [hl', e]; simp)
            simpa [e] using after_other (ho.after j k r' hl')

theorem before_not_returned {c : Call} {v : Word} {t : Thread} (h : Before c v t) : ¬ returned c t := by
  obtain ⟨fn, sz, ad, a, b⟩ := c
  intro hr
  unfold returned at hr
  cases fn with
  | load => rcases h with h | h <;> simp [code, h] at hr
  | store => obtain ⟨h | h, -⟩ := h <;> simp [code, h] at hr
  | cas => obtain ⟨-, -, h | ⟨h, -⟩ | ⟨h, -⟩ | ⟨h, -⟩ | ⟨h, -⟩⟩ := h <;> simp [code, h] at hr
  | exchange => obtain ⟨-, h | ⟨h, -⟩ | ⟨h, -⟩⟩ := h <;> simp [code, h] at hr
  | _ => obtain ⟨-, h | ⟨h, -⟩ | ⟨h, -⟩ | ⟨h, -⟩⟩ := h <;> simp [code, h] at hr

theorem after_result {c : Call} {w : Word} {t : Thread} (h : After c w t) (hr : returned c t) : Result c w (t.reg .x0) := by
  obtain ⟨fn, sz, ad, a, b⟩ := c
  unfold returned at hr
  cases fn with
  | load => exact h.2
  | store => exact trivial
  | cas =>
    unfold Result
    by_cases he : low sz w = low sz a
    · simp only [After, he, if_true] at h ⊢
      rcases h with ⟨h, -⟩ | h | h | ⟨-, h⟩
      · simp [code, h] at hr
      · simp [code, h] at hr
      · simp [code, h] at hr
      · rw [h]; rfl
    · simp only [After, he, if_false] at h ⊢
      rcases h with ⟨h, -⟩ | ⟨h, -⟩ | h | h | h | ⟨-, h⟩
      · simp [code, h] at hr
      · simp [code, h] at hr
      · simp [code, h] at hr
      · simp [code, h] at hr
      · simp [code, h] at hr
      · rw [h]; rfl
  | exchange =>
    rcases h with ⟨⟨h, -⟩ | h | h, -⟩ | ⟨-, h⟩ <;> first | (simp [code, h] at hr; done) | exact h
  | _ => rcases h with ⟨⟨h, -⟩ | h | h, -⟩ | ⟨-, h⟩ <;> first | (simp [code, h] at hr; done) | exact h

theorem after_start {c : Call} {w : Word} {t : Thread} (h : After c w t) : t.pc ≠ 0 := by
  obtain ⟨fn, sz, ad, a, b⟩ := c
  cases fn with
  | load => obtain ⟨h, -⟩ := h; omega
  | store => obtain h | h := h <;> omega
  | cas =>
    by_cases he : low sz w = low sz a
    · simp only [After, he, if_true] at h; omega
    · simp only [After, he, if_false] at h; omega
  | exchange => unfold After at h; simp only at h; omega
  | _ => unfold After AfterLoop at h; simp only at h; omega

theorem can_go_on {c : Call} {v w : Word} {t : Thread} (h : Before c v t ∨ After c w t) (ok : Bool) (m : Mem) (hr : ¬ returned c t) :
    (exec c ok m t).isSome := by
  obtain ⟨fn, sz, ad, a, b⟩ := c
  unfold returned at hr
  have hx : t.pc < (code fn).length := by
    cases fn with
    | load => rcases h with h | ⟨h, -⟩ <;> (try simp only [Before] at h) <;> simp [code] <;> omega
    | store => rcases h with ⟨h, -⟩ | h <;> (try simp only [After] at h) <;> simp [code] <;> omega
    | cas =>
      rcases h with ⟨-, -, h⟩ | h
      · simp [code]; omega
      · unfold After at h; simp only at h; simp [code]
        split at h <;> omega
    | exchange => rcases h with ⟨-, h⟩ | h <;> (try simp only [After] at h) <;> simp [code] <;> omega
    | _ => rcases h with ⟨-, h⟩ | h <;> simp only [After, AfterLoop] at h <;> simp [code] <;> omega
  have hx' := List.getElem?_eq_getElem hx
  unfold exec
  simp only [hx'] at hr ⊢
  cases hi : (code fn)[t.pc] <;> simp_all
  split <;> rfl

/-- A run: in each unit of time one step of one call, or none. -/
def Run (cs : Nat → Call) (σ : Nat → State) : Prop := (∀ i, Start (cs i) ((σ 0).thread i)) ∧ ∀ n, σ (n + 1) = σ n ∨ Step cs (σ n) (σ (n + 1))

theorem ordered_next {cs : Nat → Call} (hcl : ∀ i, Clean (cs i)) {σ : Nat → State} (h : Run cs σ) (n : Nat)
    (l : { l // Ordered cs (σ 0).mem (σ n) l }) : ∃ l', l.1 <+: l' ∧ Ordered cs (σ 0).mem (σ (n + 1)) l' := by
  rcases h.2 n with e | e
  · exact ⟨l.1, List.prefix_rfl, by rw [e]; exact l.2⟩
  · exact ordered_step hcl l.2 e

noncomputable def orders {cs : Nat → Call} (hcl : ∀ i, Clean (cs i)) {σ : Nat → State} (h : Run cs σ) :
    (n : Nat) → { l // Ordered cs (σ 0).mem (σ n) l }
  | 0 => ⟨[], ordered_start h.1⟩
  | n + 1 => ⟨(ordered_next hcl h n (orders hcl h n)).choose, (ordered_next hcl h n (orders hcl h n)).choose_spec.2⟩

end Arm

open At

/-- The calls have been made one after the other, in the order of a list. `pc` is the place of each call in its code, `done` says which
have returned, `res` is the result register, `m₀` and `m` are memory at the start and now. -/
def At.OneByOne (cs : Nat → Call) (m₀ m : Mem) (pc : Nat → Nat) (done : Nat → Prop) (res : Nat → Word) (l : List Nat) : Prop :=
  l.Nodup ∧ m = seq cs m₀ l ∧ (∀ i, done i → i ∈ l) ∧ (∀ i, pc i = 0 → i ∉ l) ∧
    ∀ i k r, l = k ++ i :: r → done i → Result (cs i) (seq cs m₀ k (cs i).addr) (res i)

/-- C238: on x86-64, however many calls run at the same time, memory is always as if calls had been made one after the other. The order
has each call at most once, every call that has returned, and none that has not started; each result is that of the call in this order. As
time goes on the order only grows at its end. So a call that returns before another starts comes before it. -/
theorem C238_atomic (cs : Nat → Call) (σ : Nat → X86.State) (h : X86.Run cs σ) :
    ∃ l : Nat → List Nat, ∀ n, l n <+: l (n + 1) ∧
      OneByOne cs (σ 0).mem (σ n).mem (fun i => ((σ n).thread i).pc) (fun i => X86.returned (cs i) ((σ n).thread i))
        (fun i => ((σ n).thread i).reg .rax) (l n) := by
  refine ⟨fun n => (X86.orders h n).1, fun n => ⟨?_, ?_⟩⟩
  · exact (X86.ordered_next h n (X86.orders h n)).choose_spec.1
  · have ho := (X86.orders h n).2
    refine ⟨ho.nodup, ho.mem, fun i hr => ?_, fun i hp hi => ?_, fun i k r hl hr => X86.after_result (ho.after i k r hl) hr⟩
    · apply Decidable.byContradiction
      intro hi
      exact X86.before_not_returned (ho.before i hi) hr
    · obtain ⟨k, r, hl⟩ := List.append_of_mem hi
      exact X86.after_start (ho.after i k r hl) hp

/-- C238: a call that has not returned is never stuck. -/
theorem C238_not_stuck (cs : Nat → Call) (σ : Nat → X86.State) (h : X86.Run cs σ) (n i : Nat) (hr : ¬ X86.returned (cs i) ((σ n).thread i)) :
    ∃ s, X86.Step cs (σ n) s := by
  have ho := (X86.orders h n).2
  have hba : ∃ w, X86.Before (cs i) ((σ n).thread i) ∨ X86.After (cs i) w ((σ n).thread i) := by
    by_cases hi : i ∈ (X86.orders h n).1
    · obtain ⟨k, r, hl⟩ := List.append_of_mem hi
      exact ⟨_, Or.inr (ho.after i k r hl)⟩
    · exact ⟨0, Or.inl (ho.before i hi)⟩
  obtain ⟨w, hba⟩ := hba
  rcases X86.can_go_on hba (σ n).mem hr with h1 | h1 <;> obtain ⟨⟨m, t⟩, h1⟩ := Option.isSome_iff_exists.1 h1
  · exact ⟨_, .exec h1⟩
  · exact ⟨_, .flush h1⟩

/-- Some instructions of one call, with no other at work. -/
def At.alone (c : Call) : Nat → Mem × X86.Thread → Option (Mem × X86.Thread)
  | 0, x => some x
  | n + 1, x => (X86.exec c x.1 x.2).bind (alone c n)

/-- `add` of 3 to the byte 254 in a cell: the cell is 0x701, the result has the low byte 254. -/
example : (alone ⟨.add, .b8, 0, 3, 0⟩ 2 (fun _ => 0x7FE, ⟨0, fun _ => 3, false, []⟩)).map (fun x => (x.1 0, low .b8 (x.2.reg .rax), x.2.pc)) =
    some (0x701, 254, 2) := by decide +kernel

example : (alone ⟨.bit .or, .b32, 0, 6, 0⟩ 5 (fun _ => 9, ⟨0, fun _ => 6, false, []⟩)).map (fun x => (x.1 0, x.2.reg .rax, x.2.pc)) =
    some (15, 9, 5) := by decide +kernel

/-- A store waits in the buffer: the barrier cannot pass. -/
example : alone ⟨.store, .b64, 0, 6, 0⟩ 3 (fun _ => 9, ⟨0, fun _ => 6, false, []⟩) = none := by rfl

/-- There are runs. -/
example (cs : Nat → Call) (m : Mem) : ∃ σ, X86.Run cs σ ∧ (σ 0).mem = m :=
  ⟨fun _ => ⟨m, fun i => ⟨0, fun r => if r = .rsi then (cs i).a else (cs i).b, false, []⟩⟩, ⟨fun _ => ⟨rfl, rfl, rfl, rfl⟩, fun _ => Or.inl rfl⟩, rfl⟩

/-- C239: the same on ARM64. -/
def C239_statement : Prop :=
  ∀ (cs : Nat → Call) (σ : Nat → Arm.State), Arm.Run cs σ →
    ∃ l : Nat → List Nat, ∀ n, l n <+: l (n + 1) ∧
      OneByOne cs (σ 0).mem (σ n).mem (fun i => ((σ n).thread i).pc) (fun i => Arm.returned (cs i) ((σ n).thread i))
        (fun i => ((σ n).thread i).reg .x0) (l n)

theorem At.clean_of {cs : Nat → Call} (hc : ∀ i, (cs i).fn = .cas → (cs i).size = .b8 → (cs i).a.toNat % 2 ^ 32 < 256) (i : Nat) :
    Arm.Clean (cs i) := by
  intro hf
  have := hc i hf
  generalize cs i = c at *
  obtain ⟨fn, sz, ad, a, b⟩ := c
  cases sz with
  | b8 =>
    have h1 := this rfl
    simp only at h1
    apply BitVec.eq_of_toNat_eq
    simp [low, Arm.cmpSize, Size.bits]
    omega
  | b32 => exact low_ext .b32 _
  | b64 => exact low_ext .b64 _

/-- C239: it holds if no compare-and-exchange of a byte has anything in bits 8 to 31 of the register of the value it expects. -/
theorem C239_atomic_partial (cs : Nat → Call) (hc : ∀ i, (cs i).fn = .cas → (cs i).size = .b8 → (cs i).a.toNat % 2 ^ 32 < 256)
    (σ : Nat → Arm.State) (h : Arm.Run cs σ) :
    ∃ l : Nat → List Nat, ∀ n, l n <+: l (n + 1) ∧
      OneByOne cs (σ 0).mem (σ n).mem (fun i => ((σ n).thread i).pc) (fun i => Arm.returned (cs i) ((σ n).thread i))
        (fun i => ((σ n).thread i).reg .x0) (l n) := by
  have hcl := clean_of hc
  refine ⟨fun n => (Arm.orders hcl h n).1, fun n => ⟨?_, ?_⟩⟩
  · exact (Arm.ordered_next hcl h n (Arm.orders hcl h n)).choose_spec.1
  · have ho := (Arm.orders hcl h n).2
    refine ⟨ho.nodup, ho.mem, fun i hr => ?_, fun i hp hi => ?_, fun i k r hl hr => Arm.after_result (ho.after i k r hl) hr⟩
    · apply Decidable.byContradiction
      intro hi
      exact Arm.before_not_returned (ho.before i hi) hr
    · obtain ⟨k, r, hl⟩ := List.append_of_mem hi
      exact Arm.after_start (ho.after i k r hl) hp

/-- C239: under the same condition a call that has not returned is never stuck. -/
theorem C239_not_stuck_partial (cs : Nat → Call) (hc : ∀ i, (cs i).fn = .cas → (cs i).size = .b8 → (cs i).a.toNat % 2 ^ 32 < 256)
    (σ : Nat → Arm.State) (h : Arm.Run cs σ) (n i : Nat) (hr : ¬ Arm.returned (cs i) ((σ n).thread i)) (ok : Bool) :
    (Arm.exec (cs i) ok (σ n).mem ((σ n).thread i)).isSome := by
  have ho := (Arm.orders (clean_of hc) h n).2
  by_cases hi : i ∈ (Arm.orders (clean_of hc) h n).1
  · obtain ⟨k, r, hl⟩ := List.append_of_mem hi
    exact Arm.can_go_on (v := 0) (Or.inr (ho.after i k r hl)) ok _ hr
  · exact Arm.can_go_on (w := 0) (Or.inl (ho.before i hi)) ok _ hr

namespace At

theorem seq_loads {cs : Nat → Call} : ∀ (l : List Nat) (m : Mem), (∀ j ∈ l, (cs j).fn = .load) → seq cs m l = m
  | [], _, _ => rfl
  | i :: l, m, h => by
    have h1 : apply (cs i) m = m := apply_id (by unfold effect; rw [h i (by simp)])
    show seq cs (apply (cs i) m) l = m
    rw [h1]
    exact seq_loads l m fun j hj => h j (by simp [hj])

/-- A byte 5 is expected, in a register that holds 0x105. -/
def badCall : Nat → Call
  | 0 => ⟨.cas, .b8, 0, 0x105, 7⟩
  | _ => ⟨.load, .b8, 0, 0, 0⟩

def badMem : Mem := fun _ => 5

def badReg (x0 x3 : Word) : Arm.Reg → Word
  | .x0 => x0
  | .x1 => 0x105
  | .x2 => 7
  | .x3 => x3
  | .x4 => 0

def badThread : Nat → Arm.Thread
  | 0 => ⟨0, badReg 9 0, true, false⟩
  | 1 => ⟨1, badReg 9 5, true, true⟩
  | 2 => ⟨2, badReg 9 5, false, true⟩
  | 3 => ⟨8, badReg 9 5, false, true⟩
  | 4 => ⟨9, badReg 9 5, false, false⟩
  | 5 => ⟨10, badReg 9 5, false, false⟩
  | _ => ⟨11, badReg 0 5, false, false⟩

def badState (n : Nat) : Arm.State := ⟨badMem, fun j => if j = 0 then badThread n else ⟨0, fun _ => 0, false, false⟩⟩

theorem bad_exec (n : Nat) (h : n < 6) : Arm.exec (badCall 0) true badMem (badThread n) = some (badMem, badThread (n + 1), false) := by
  rcases n with _ | _ | _ | _ | _ | _ | n
  · refine congrArg some (Prod.ext rfl (Prod.ext ?_ rfl))
    show Arm.Thread.mk 1 _ true true = Arm.Thread.mk 1 (badReg 9 5) true true
    congr 1
    funext r
    cases r <;> rfl
  · rfl
  · rfl
  · rfl
  · rfl
  · refine congrArg some (Prod.ext rfl (Prod.ext ?_ rfl))
    show Arm.Thread.mk 11 _ false false = Arm.Thread.mk 11 (badReg 0 5) false false
    congr 1
    funext r
    cases r <;> rfl
  · omega

theorem bad_run : Arm.Run badCall badState := by
  refine ⟨fun i => ?_, fun n => ?_⟩
  · cases i with
    | zero => exact ⟨rfl, rfl, rfl⟩
    | succ i => exact ⟨rfl, rfl, rfl⟩
  · by_cases hn : n < 6
    · right
      have := Arm.Step.exec (cs := badCall) (s := badState n) (i := 0) (ok := true) (bad_exec n hn)
      have e : (⟨badMem, fun j => if j = 0 then badThread (n + 1) else Arm.clear badCall 0 false j ((badState n).thread j)⟩ : Arm.State) =
          badState (n + 1) := by
        unfold badState
        congr 1
        funext j
        by_cases e : j = 0
        · simp [e]
        · simp [e, Arm.clear]
      rw [e] at this
      exact this
    · left
      obtain ⟨k, rfl⟩ : ∃ k, n = k + 6 := ⟨n - 6, by omega⟩
      rfl

end At

/-- C239 fails: `cmp` of the function for bytes looks at 32 bits. The bits of a register above a byte argument may hold anything. With
0x105 for the byte 5 and a cell of 5 the exchange is not made and the result is false. -/
theorem C239_atomic_fails : ¬ C239_statement := by
  intro hs
  obtain ⟨l, hl⟩ := hs badCall badState bad_run
  obtain ⟨-, hn, -, hd, -, hr⟩ := hl 6
  have h0 := hd 0 rfl
  obtain ⟨k, r, e⟩ := List.append_of_mem h0
  have h1 := hr 0 k r e rfl
  rw [seq_loads k] at h1
  · change low .b8 (0 : Word) = (if low .b8 (5 : Word) = low .b8 (0x105 : Word) then 1 else 0) at h1
    revert h1
    decide
  · intro j hj
    have : j ≠ 0 := by
      rintro rfl
      rw [e, List.nodup_append] at hn
      exact hn.2.2 0 hj 0 (by simp) rfl
    cases j with
    | zero => exact absurd rfl this
    | succ j => rfl

end Verif.Props
