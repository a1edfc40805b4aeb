import Verif.Model.Copy
import Mathlib.Data.List.Nodup
import Mathlib.Tactic.Push

namespace Verif.Props
open Verif.Copy

/-! ## Specification: what a value contains and which memory it uses -/

namespace Cp

/-- The stored key stands for `k`. -/
def ShowsKey (h : Heap) : Key → Val → Prop
  | .num n, v => v = .num n
  | .str bs, v => ∃ a cs, v = .str a bs.length ∧ h[a]? = some (.bytes cs) ∧ cs.take bs.length = bs

def ShowsK (h : Heap) : List Key → List Val → Prop
  | [], vs => vs = []
  | k :: ks, vs => ∃ w ws, vs = w :: ws ∧ ShowsKey h k w ∧ ShowsK h ks ws

mutual
/-- In memory `h` the value has the given contents. -/
def Shows (h : Heap) : Tree → Val → Prop
  | .num n, v => v = .num n
  | .str bs, v => ∃ a cs, v = .str a bs.length ∧ h[a]? = some (.bytes cs) ∧ cs.take bs.length = bs
  | .arr ts, v => ∃ a vs, v = .arr a ts.length ∧ h[a]? = some (.vals vs) ∧ ts.length ≤ vs.length ∧
      ShowsL h ts (vs.take ts.length)
  | .map ks ts, v => ∃ a kvs vs, v = .map a ∧ h[a]? = some (.table kvs vs) ∧
      ShowsK h ks kvs ∧ ShowsL h ts vs
  | .rcd ts, v => ∃ vs, v = .rcd vs ∧ ShowsL h ts vs
  | .ptr a, v => v = .ptr a
def ShowsL (h : Heap) : List Tree → List Val → Prop
  | [], vs => vs = []
  | t :: ts, vs => ∃ w ws, vs = w :: ws ∧ Shows h t w ∧ ShowsL h ts ws
end

def footK : List Val → List Nat
  | [] => []
  | .str a _ :: ks => a :: footK ks
  | _ :: ks => footK ks

mutual
/-- The blocks a value with the given contents uses (not those behind pointers). -/
def foot (h : Heap) : Tree → Val → List Nat
  | .str _, .str a _ => [a]
  | .arr ts, .arr a len =>
    a :: (match h[a]? with
      | some (.vals vs) => footL h ts (vs.take len)
      | _ => [])
  | .map _ ts, .map a =>
    a :: (match h[a]? with
      | some (.table kvs vs) => footK kvs ++ footL h ts vs
      | _ => [])
  | .rcd ts, .rcd vs => footL h ts vs
  | _, _ => []
def footL (h : Heap) : List Tree → List Val → List Nat
  | t :: ts, v :: vs => foot h t v ++ footL h ts vs
  | _, _ => []
end

/-- The value has the given contents and does not use any block twice, as is the case for a variable whose
contents were put into it by operations of the program. -/
def Holds (h : Heap) (t : Tree) (v : Val) : Prop := Shows h t v ∧ (foot h t v).Nodup

/-- The effect which the program means by an action. -/
def actTree : Act → Tree → Option Tree
  | .set t, _ => some t
  | .push t, .arr ts => some (.arr (ts ++ [t]))
  | .pop, .arr ts => if ts = [] then none else some (.arr ts.dropLast)
  | .removeAt i, .arr ts => if i < ts.length then some (.arr (ts.eraseIdx i)) else none
  | .clear, .arr _ => some (.arr [])
  | .clear, .map _ _ => some (.map [] [])
  | .put _ k t, .map ks ts =>
    match ks.findIdx? (· = k) with
    | some i => some (.map ks (ts.set i t))
    | none => some (.map (ks ++ [k]) (ts ++ [t]))
  | .del k, .map ks ts =>
    match ks.findIdx? (· = k) with
    | some i => some (.map (ks.eraseIdx i) (ts.eraseIdx i))
    | none => some (.map ks ts)
  | _, _ => none

/-- The effect which the program means by an operation: only the place at the end of the path changes. -/
def updTree : List Step → Act → Tree → Option Tree
  | [], act, t => actTree act t
  | .idx i :: path, act, .arr ts =>
    match ts[i]? with
    | some t => (updTree path act t).map (fun t1 => .arr (ts.set i t1))
    | none => none
  | .key k :: path, act, .map ks ts =>
    match ks.findIdx? (· = k) with
    | some i =>
      match ts[i]? with
      | some t => (updTree path act t).map (fun t1 => .map ks (ts.set i t1))
      | none => none
    | none => none
  | .field j :: path, act, .rcd ts =>
    match ts[j]? with
    | some t => (updTree path act t).map (fun t1 => .rcd (ts.set j t1))
    | none => none
  | _, _, _ => none

/-- The operations on one of the two variables, applied to contents. -/
def side (b : Bool) : List (Bool × Op) → Tree → Option Tree
  | [], t => some t
  | (c, op) :: ops, t =>
    if c = b then
      match updTree op.path op.act t with
      | some t1 => side b ops t1
      | none => none
    else side b ops t

/-- Two variables with contents `t` are independent: after any interleaved sequence of operations on the two,
each has the contents which its own operations alone give it. -/
def Independent (h : Heap) (t : Tree) (v w : Val) : Prop :=
  ∀ ops tv tw, side true ops t = some tv → side false ops t = some tw →
    ∃ h1 v1 w1, exec ops h v w = some (h1, v1, w1) ∧ Shows h1 tv v1 ∧ Shows h1 tw w1

/-! ## Frame -/

theorem showsKey_frame {h h' : Heap} {k : Key} {v : Val}
    (e : ∀ x ∈ footK [v], h'[x]? = h[x]?) (s : ShowsKey h k v) : ShowsKey h' k v := by
  cases k with
  | num n => exact s
  | str bs =>
    obtain ⟨a, cs, rfl, h1, h2⟩ := s
    exact ⟨a, cs, rfl, by rw [e a (by simp [footK])]; exact h1, h2⟩

theorem footK_cons (v : Val) (vs : List Val) : footK (v :: vs) = footK [v] ++ footK vs := by
  cases v <;> simp [footK]

theorem footK_append (vs ws : List Val) : footK (vs ++ ws) = footK vs ++ footK ws := by
  induction vs with
  | nil => simp [footK]
  | cons v vs ih => rw [List.cons_append, footK_cons, footK_cons v vs, ih, List.append_assoc]

theorem showsK_frame {h h' : Heap} : ∀ {ks : List Key} {vs : List Val},
    (∀ x ∈ footK vs, h'[x]? = h[x]?) → ShowsK h ks vs → ShowsK h' ks vs
  | [], _, _, s => s
  | k :: ks, _, e, s => by
    obtain ⟨w, ws, rfl, s1, s2⟩ := s
    rw [footK_cons] at e
    exact ⟨w, ws, rfl, showsKey_frame (fun x hx => e x (List.mem_append_left _ hx)) s1,
      showsK_frame (fun x hx => e x (List.mem_append_right _ hx)) s2⟩

theorem showsKey_lt {h : Heap} {k : Key} {v : Val} (s : ShowsKey h k v) :
    ∀ x ∈ footK [v], x < h.length := by
  cases k with
  | num n => cases s; intro x hx; simp [footK] at hx
  | str bs =>
    obtain ⟨a, cs, rfl, h1, h2⟩ := s
    intro x hx
    simp [footK] at hx
    subst hx
    exact (List.getElem?_eq_some_iff.1 h1).1

theorem showsK_lt {h : Heap} : ∀ {ks : List Key} {vs : List Val}, ShowsK h ks vs →
    ∀ x ∈ footK vs, x < h.length
  | [], _, s => by cases s; intro x hx; simp [footK] at hx
  | k :: ks, _, s => by
    obtain ⟨w, ws, rfl, s1, s2⟩ := s
    intro x hx
    rw [footK_cons, List.mem_append] at hx
    rcases hx with hx | hx
    · exact showsKey_lt s1 x hx
    · exact showsK_lt s2 x hx

mutual
theorem frame {h h' : Heap} : ∀ {t : Tree} {v : Val},
    (∀ x ∈ foot h t v, h'[x]? = h[x]?) → Shows h t v → Shows h' t v ∧ foot h' t v = foot h t v
  | .num n, _, _, s => by cases s; exact ⟨rfl, rfl⟩
  | .ptr n, _, _, s => by cases s; exact ⟨rfl, rfl⟩
  | .str bs, _, e, s => by
    obtain ⟨a, cs, rfl, h1, h2⟩ := s
    exact ⟨⟨a, cs, rfl, by rw [e a (by simp [foot])]; exact h1, h2⟩, rfl⟩
  | .arr ts, _, e, s => by
    obtain ⟨a, vs, rfl, h1, h2, h3⟩ := s
    have ea : h'[a]? = some (.vals vs) := by rw [e a (by simp [foot])]; exact h1
    simp only [foot, h1] at e
    obtain ⟨f1, f2⟩ := frameL (fun x hx => e x (List.mem_cons_of_mem _ hx)) h3
    exact ⟨⟨a, vs, rfl, ea, h2, f1⟩, by simp only [foot, h1, ea, f2]⟩
  | .map ks ts, _, e, s => by
    obtain ⟨a, kvs, vs, rfl, h1, h2, h3⟩ := s
    have ea : h'[a]? = some (.table kvs vs) := by rw [e a (by simp [foot])]; exact h1
    simp only [foot, h1] at e
    obtain ⟨f1, f2⟩ := frameL
      (fun x hx => e x (List.mem_cons_of_mem _ (List.mem_append_right _ hx))) h3
    have f3 := showsK_frame
      (fun x hx => e x (List.mem_cons_of_mem _ (List.mem_append_left _ hx))) h2
    exact ⟨⟨a, kvs, vs, rfl, ea, f3, f1⟩, by simp only [foot, h1, ea, f2]⟩
  | .rcd ts, _, e, s => by
    obtain ⟨vs, rfl, h3⟩ := s
    simp only [foot] at e
    obtain ⟨f1, f2⟩ := frameL e h3
    exact ⟨⟨vs, rfl, f1⟩, by simp only [foot, f2]⟩
theorem frameL {h h' : Heap} : ∀ {ts : List Tree} {vs : List Val},
    (∀ x ∈ footL h ts vs, h'[x]? = h[x]?) → ShowsL h ts vs →
      ShowsL h' ts vs ∧ footL h' ts vs = footL h ts vs
  | [], _, _, s => by cases s; exact ⟨rfl, rfl⟩
  | t :: ts, _, e, s => by
    obtain ⟨w, ws, rfl, s1, s2⟩ := s
    simp only [footL] at e
    obtain ⟨f1, f2⟩ := frame (fun x hx => e x (List.mem_append_left _ hx)) s1
    obtain ⟨g1, g2⟩ := frameL (fun x hx => e x (List.mem_append_right _ hx)) s2
    exact ⟨⟨w, ws, rfl, f1, g1⟩, by simp only [footL, f2, g2]⟩
end

mutual
theorem foot_lt {h : Heap} : ∀ {t : Tree} {v : Val}, Shows h t v → ∀ x ∈ foot h t v, x < h.length
  | .num n, _, s => by cases s; simp [foot]
  | .ptr n, _, s => by cases s; simp [foot]
  | .str bs, _, s => by
    obtain ⟨a, cs, rfl, h1, h2⟩ := s
    intro x hx
    simp [foot] at hx
    subst hx
    exact (List.getElem?_eq_some_iff.1 h1).1
  | .arr ts, _, s => by
    obtain ⟨a, vs, rfl, h1, h2, h3⟩ := s
    intro x hx
    simp only [foot, h1, List.mem_cons] at hx
    rcases hx with rfl | hx
    · exact (List.getElem?_eq_some_iff.1 h1).1
    · exact footL_lt h3 x hx
  | .map ks ts, _, s => by
    obtain ⟨a, kvs, vs, rfl, h1, h2, h3⟩ := s
    intro x hx
    simp only [foot, h1, List.mem_cons, List.mem_append] at hx
    rcases hx with rfl | hx | hx
    · exact (List.getElem?_eq_some_iff.1 h1).1
    · exact showsK_lt h2 x hx
    · exact footL_lt h3 x hx
  | .rcd ts, _, s => by
    obtain ⟨vs, rfl, h3⟩ := s
    simp only [foot]
    exact footL_lt h3
theorem footL_lt {h : Heap} : ∀ {ts : List Tree} {vs : List Val}, ShowsL h ts vs →
    ∀ x ∈ footL h ts vs, x < h.length
  | [], _, s => by cases s; simp [footL]
  | t :: ts, _, s => by
    obtain ⟨w, ws, rfl, s1, s2⟩ := s
    intro x hx
    simp only [footL, List.mem_append] at hx
    rcases hx with hx | hx
    · exact foot_lt s1 x hx
    · exact footL_lt s2 x hx
end

theorem showsL_length {h : Heap} : ∀ {ts : List Tree} {vs : List Val}, ShowsL h ts vs →
    ts.length = vs.length
  | [], _, s => by cases s; rfl
  | t :: ts, _, s => by
    obtain ⟨w, ws, rfl, s1, s2⟩ := s
    simp [showsL_length s2]

theorem showsK_length {h : Heap} : ∀ {ts : List Key} {vs : List Val}, ShowsK h ts vs →
    ts.length = vs.length
  | [], _, s => by cases s; rfl
  | t :: ts, _, s => by
    obtain ⟨w, ws, rfl, s1, s2⟩ := s
    simp [showsK_length s2]

theorem get_append {h k : Heap} {x : Nat} (l : x < h.length) : (h ++ k)[x]? = h[x]? :=
  List.getElem?_append_left l

/-! ## New values -/

def New (h h' : Heap) (t : Tree) (v : Val) : Prop :=
  (∃ k, h' = h ++ k) ∧ Shows h' t v ∧ (foot h' t v).Nodup ∧ ∀ x ∈ foot h' t v, h.length ≤ x

def NewL (h h' : Heap) (ts : List Tree) (vs : List Val) : Prop :=
  (∃ k, h' = h ++ k) ∧ ShowsL h' ts vs ∧ (footL h' ts vs).Nodup ∧ ∀ x ∈ footL h' ts vs, h.length ≤ x

def NewKey (h h' : Heap) (k : Key) (v : Val) : Prop :=
  (∃ k, h' = h ++ k) ∧ ShowsKey h' k v ∧ (footK [v]).Nodup ∧ ∀ x ∈ footK [v], h.length ≤ x

def NewK (h h' : Heap) (ks : List Key) (vs : List Val) : Prop :=
  (∃ k, h' = h ++ k) ∧ ShowsK h' ks vs ∧ (footK vs).Nodup ∧ ∀ x ∈ footK vs, h.length ≤ x

/-- Keys and values together. -/
def NewE (h h' : Heap) (ks : List Key) (ts : List Tree) (kvs vs : List Val) : Prop :=
  (∃ k, h' = h ++ k) ∧ ShowsK h' ks kvs ∧ ShowsL h' ts vs ∧ (footK kvs ++ footL h' ts vs).Nodup ∧
    ∀ x ∈ footK kvs ++ footL h' ts vs, h.length ≤ x

theorem nodup_split {l r : List Nat} {n : Nat} (hl : l.Nodup) (hr : r.Nodup) (h1 : ∀ x ∈ l, x < n)
    (h2 : ∀ x ∈ r, n ≤ x) : (l ++ r).Nodup :=
  List.nodup_append.2 ⟨hl, hr, fun a ha b hb e => by have := h1 a ha; have := h2 b hb; omega⟩

theorem newL_nil (h : Heap) : NewL h h [] [] := ⟨⟨[], by simp⟩, rfl, by simp [footL], by simp [footL]⟩

theorem newK_nil (h : Heap) : NewK h h [] [] := ⟨⟨[], by simp⟩, rfl, by simp [footK], by simp [footK]⟩

theorem newL_cons {h h1 h2 : Heap} {t v ts vs} (n1 : New h h1 t v) (n2 : NewL h1 h2 ts vs) :
    NewL h h2 (t :: ts) (v :: vs) := by
  obtain ⟨⟨k1, rfl⟩, s1, d1, l1⟩ := n1
  obtain ⟨⟨k2, rfl⟩, s2, d2, l2⟩ := n2
  obtain ⟨f1, f2⟩ := frame (h' := h ++ k1 ++ k2) (fun x hx => get_append (foot_lt s1 x hx)) s1
  refine ⟨⟨k1 ++ k2, by simp⟩, ⟨v, vs, rfl, f1, s2⟩, ?_, ?_⟩
  · simp only [footL, f2]
    exact nodup_split d1 d2 (foot_lt s1) l2
  · intro x hx
    simp only [footL, f2, List.mem_append] at hx
    rcases hx with hx | hx
    · exact l1 x hx
    · have := l2 x hx; simp at this; omega

theorem newK_cons {h h1 h2 : Heap} {t v ts vs} (n1 : NewKey h h1 t v) (n2 : NewK h1 h2 ts vs) :
    NewK h h2 (t :: ts) (v :: vs) := by
  obtain ⟨⟨k1, rfl⟩, s1, d1, l1⟩ := n1
  obtain ⟨⟨k2, rfl⟩, s2, d2, l2⟩ := n2
  have f1 := showsKey_frame (h' := h ++ k1 ++ k2) (fun x hx => get_append (showsKey_lt s1 x hx)) s1
  refine ⟨⟨k1 ++ k2, by simp⟩, ⟨v, vs, rfl, f1, s2⟩, ?_, ?_⟩
  · rw [footK_cons]
    exact nodup_split d1 d2 (showsKey_lt s1) l2
  · intro x hx
    rw [footK_cons, List.mem_append] at hx
    rcases hx with hx | hx
    · exact l1 x hx
    · have := l2 x hx; simp at this; omega

theorem newE_of {h h1 h2 : Heap} {ks kvs ts vs} (n1 : NewK h h1 ks kvs) (n2 : NewL h1 h2 ts vs) :
    NewE h h2 ks ts kvs vs := by
  obtain ⟨⟨k1, rfl⟩, s1, d1, l1⟩ := n1
  obtain ⟨⟨k2, rfl⟩, s2, d2, l2⟩ := n2
  have f1 := showsK_frame (h' := h ++ k1 ++ k2) (fun x hx => get_append (showsK_lt s1 x hx)) s1
  refine ⟨⟨k1 ++ k2, by simp⟩, f1, s2, nodup_split d1 d2 (showsK_lt s1) l2, ?_⟩
  intro x hx
  rw [List.mem_append] at hx
  rcases hx with hx | hx
  · exact l1 x hx
  · have := l2 x hx; simp at this; omega

theorem fresh_take (vs : List Val) : (fresh vs).take vs.length = vs := by
  unfold fresh
  split
  · rename_i e; subst e; simp
  · simp

theorem fresh_le (vs : List Val) : vs.length ≤ (fresh vs).length := by
  unfold fresh
  split
  · rename_i e; subst e; simp
  · simp

theorem new_arr {h h1 : Heap} {ts vs} (n : NewL h h1 ts vs) :
    New h (h1 ++ [.vals (fresh vs)]) (.arr ts) (.arr h1.length ts.length) := by
  obtain ⟨⟨k, rfl⟩, s, d, l⟩ := n
  obtain ⟨f1, f2⟩ := frameL (h' := h ++ k ++ [.vals (fresh vs)])
    (fun x hx => get_append (footL_lt s x hx)) s
  have e := showsL_length s
  have g : (h ++ k ++ [Cell.vals (fresh vs)])[(h ++ k).length]? = some (.vals (fresh vs)) := by simp
  have tk : (fresh vs).take ts.length = vs := by rw [e]; exact fresh_take vs
  refine ⟨⟨k ++ [.vals (fresh vs)], by simp⟩, ⟨_, _, rfl, g, ?_, ?_⟩, ?_, ?_⟩
  · rw [e]; exact fresh_le vs
  · rw [tk]; exact f1
  · simp only [foot, g, tk, f2, List.nodup_cons]
    exact ⟨fun hx => by have := footL_lt s _ hx; omega, d⟩
  · intro x hx
    simp only [foot, g, tk, f2, List.mem_cons] at hx
    rcases hx with rfl | hx
    · simp
    · exact l x hx

theorem new_map {h h1 : Heap} {ks ts kvs vs} (n : NewE h h1 ks ts kvs vs) :
    New h (h1 ++ [.table kvs vs]) (.map ks ts) (.map h1.length) := by
  obtain ⟨⟨k, rfl⟩, s0, s, d, l⟩ := n
  obtain ⟨f1, f2⟩ := frameL (h' := h ++ k ++ [.table kvs vs])
    (fun x hx => get_append (footL_lt s x hx)) s
  have f3 := showsK_frame (h' := h ++ k ++ [.table kvs vs])
    (fun x hx => get_append (showsK_lt s0 x hx)) s0
  have g : (h ++ k ++ [Cell.table kvs vs])[(h ++ k).length]? = some (.table kvs vs) := by simp
  refine ⟨⟨k ++ [.table kvs vs], by simp⟩, ⟨_, _, _, rfl, g, f3, f1⟩, ?_, ?_⟩
  · simp only [foot, g, f2, List.nodup_cons]
    refine ⟨fun hx => ?_, d⟩
    rcases List.mem_append.1 hx with hx | hx
    · have := showsK_lt s0 _ hx; omega
    · have := footL_lt s _ hx; omega
  · intro x hx
    simp only [foot, g, f2, List.mem_cons] at hx
    rcases hx with rfl | hx
    · simp
    · exact l x hx

theorem new_rcd {h h1 : Heap} {ts vs} (n : NewL h h1 ts vs) : New h h1 (.rcd ts) (.rcd vs) := by
  obtain ⟨k, s, d, l⟩ := n
  exact ⟨k, ⟨vs, rfl, s⟩, by simpa only [foot] using d, by simpa only [foot] using l⟩

theorem makeKey_new (h : Heap) (k : Key) : NewKey h (makeKey h k).1 k (makeKey h k).2 := by
  cases k with
  | num n => exact ⟨⟨[], by simp [makeKey]⟩, rfl, by simp [makeKey, footK], by simp [makeKey, footK]⟩
  | str bs =>
    exact ⟨⟨[_], rfl⟩, ⟨h.length, bs ++ [0], rfl, by simp [makeKey], by simp⟩, by simp [makeKey, footK],
      by simp [makeKey, footK]⟩

theorem makeKeys_new : ∀ (h : Heap) (ks : List Key), NewK h (makeKeys h ks).1 ks (makeKeys h ks).2
  | h, [] => newK_nil h
  | h, k :: ks => newK_cons (makeKey_new h k) (makeKeys_new (makeKey h k).1 ks)

mutual
theorem make_new : ∀ (h : Heap) (t : Tree), New h (make h t).1 t (make h t).2
  | h, .num n => ⟨⟨[], by simp [make]⟩, rfl, by simp [make, foot], by simp [make, foot]⟩
  | h, .ptr n => ⟨⟨[], by simp [make]⟩, rfl, by simp [make, foot], by simp [make, foot]⟩
  | h, .str bs =>
    ⟨⟨[.bytes (bs ++ [0])], by simp [make]⟩, ⟨h.length, bs ++ [0], by simp [make], by simp [make], by simp⟩,
      by simp [make, foot], by simp [make, foot]⟩
  | h, .arr ts => by
    simp only [make]; exact new_arr (makeL_new h ts)
  | h, .map ks ts => by
    simp only [make]; exact new_map (newE_of (makeKeys_new h ks) (makeL_new _ ts))
  | h, .rcd ts => by
    simp only [make]; exact new_rcd (makeL_new h ts)
theorem makeL_new : ∀ (h : Heap) (ts : List Tree), NewL h (makeL h ts).1 ts (makeL h ts).2
  | h, [] => by simp only [makeL]; exact newL_nil h
  | h, t :: ts => by
    simp only [makeL]; exact newL_cons (make_new h t) (makeL_new _ ts)
end


/-! ## Operations -/

def Upd (h : Heap) (t : Tree) (v : Val) (h1 : Heap) (t1 : Tree) (v1 : Val) : Prop :=
  h.length ≤ h1.length ∧ (∀ x < h.length, x ∉ foot h t v → h1[x]? = h[x]?) ∧ Shows h1 t1 v1 ∧
    (foot h1 t1 v1).Nodup ∧ ∀ x ∈ foot h1 t1 v1, x ∈ foot h t v ∨ h.length ≤ x

def UpdL (h : Heap) (ts : List Tree) (vs : List Val) (h1 : Heap) (ts1 : List Tree) (vs1 : List Val) : Prop :=
  h.length ≤ h1.length ∧ (∀ x < h.length, x ∉ footL h ts vs → h1[x]? = h[x]?) ∧ ShowsL h1 ts1 vs1 ∧
    (footL h1 ts1 vs1).Nodup ∧ ∀ x ∈ footL h1 ts1 vs1, x ∈ footL h ts vs ∨ h.length ≤ x

def UpdE (h : Heap) (ts : List Tree) (kvs vs : List Val) (h1 : Heap) (ks1 : List Key) (ts1 : List Tree)
    (kvs1 vs1 : List Val) : Prop :=
  h.length ≤ h1.length ∧
    (∀ x < h.length, x ∉ footK kvs ++ footL h ts vs → h1[x]? = h[x]?) ∧ ShowsK h1 ks1 kvs1 ∧
    ShowsL h1 ts1 vs1 ∧ (footK kvs1 ++ footL h1 ts1 vs1).Nodup ∧
    ∀ x ∈ footK kvs1 ++ footL h1 ts1 vs1, x ∈ footK kvs ++ footL h ts vs ∨ h.length ≤ x

theorem upd_of_new {h h1 : Heap} {t t1 : Tree} {v v1 : Val} (n : New h h1 t1 v1) : Upd h t v h1 t1 v1 := by
  obtain ⟨⟨k, rfl⟩, s, d, l⟩ := n
  exact ⟨by simp, fun x hx _ => get_append hx, s, d, fun x hx => Or.inr (l x hx)⟩

theorem footL_append {h : Heap} : ∀ {ts1 : List Tree} {vs1 : List Val} {ts2 : List Tree} {vs2 : List Val},
    ts1.length = vs1.length → footL h (ts1 ++ ts2) (vs1 ++ vs2) = footL h ts1 vs1 ++ footL h ts2 vs2
  | [], [], _, _, _ => by simp [footL]
  | t :: ts1, v :: vs1, ts2, vs2, e => by
    simp only [List.cons_append, footL, List.append_assoc]
    rw [footL_append (by simpa using e)]

theorem showsL_append {h : Heap} : ∀ {ts1 : List Tree} {vs1 : List Val} {ts2 : List Tree} {vs2 : List Val},
    ts1.length = vs1.length →
      (ShowsL h (ts1 ++ ts2) (vs1 ++ vs2) ↔ ShowsL h ts1 vs1 ∧ ShowsL h ts2 vs2)
  | [], [], _, _, _ => by simp [ShowsL]
  | t :: ts1, v :: vs1, ts2, vs2, e => by
    have ih := @showsL_append h ts1 vs1 ts2 vs2 (by simpa using e)
    constructor
    · rintro ⟨w, ws, he, s1, s2⟩
      simp only [List.cons_append, List.cons.injEq] at he
      obtain ⟨rfl, rfl⟩ := he
      obtain ⟨i1, i2⟩ := ih.1 s2
      exact ⟨⟨_, _, rfl, s1, i1⟩, i2⟩
    · rintro ⟨⟨w, ws, he, s1, s2⟩, s3⟩
      simp only [List.cons.injEq] at he
      obtain ⟨rfl, rfl⟩ := he
      exact ⟨_, _, rfl, s1, ih.2 ⟨s2, s3⟩⟩

theorem showsK_append {h : Heap} : ∀ {ts1 : List Key} {vs1 : List Val} {ts2 : List Key} {vs2 : List Val},
    ts1.length = vs1.length →
      (ShowsK h (ts1 ++ ts2) (vs1 ++ vs2) ↔ ShowsK h ts1 vs1 ∧ ShowsK h ts2 vs2)
  | [], [], _, _, _ => by simp [ShowsK]
  | t :: ts1, v :: vs1, ts2, vs2, e => by
    have ih := @showsK_append h ts1 vs1 ts2 vs2 (by simpa using e)
    constructor
    · rintro ⟨w, ws, he, s1, s2⟩
      simp only [List.cons_append, List.cons.injEq] at he
      obtain ⟨rfl, rfl⟩ := he
      obtain ⟨i1, i2⟩ := ih.1 s2
      exact ⟨⟨_, _, rfl, s1, i1⟩, i2⟩
    · rintro ⟨⟨w, ws, he, s1, s2⟩, s3⟩
      simp only [List.cons.injEq] at he
      obtain ⟨rfl, rfl⟩ := he
      exact ⟨_, _, rfl, s1, ih.2 ⟨s2, s3⟩⟩

/-- Splitting two lists at the same place. -/
theorem split_at {α : Type} {l : List α} {i : Nat} {x : α} (e : l[i]? = some x) :
    ∃ l1 l2, l = l1 ++ x :: l2 ∧ l1.length = i := by
  obtain ⟨hi, rfl⟩ := List.getElem?_eq_some_iff.1 e
  exact ⟨l.take i, l.drop (i + 1), by simp, by simp; omega⟩

theorem set_split {α : Type} (l1 l2 : List α) (x y : α) : (l1 ++ x :: l2).set l1.length y = l1 ++ y :: l2 := by
  simp

/-- One element of a list of values is operated on. -/
theorem updL_mid {h h1 : Heap} {ts : List Tree} {vs : List Val} {i : Nat} {t t1 : Tree} {e e1 : Val}
    (s : ShowsL h ts vs) (d : (footL h ts vs).Nodup) (ht : ts[i]? = some t) (hv : vs[i]? = some e)
    (u : Upd h t e h1 t1 e1) : UpdL h ts vs h1 (ts.set i t1) (vs.set i e1) := by
  obtain ⟨a1, a2, rfl, la⟩ := split_at ht
  obtain ⟨b1, b2, rfl, lb⟩ := split_at hv
  have le : a1.length = b1.length := by omega
  rw [← la, set_split]
  rw [la, ← lb, set_split]
  obtain ⟨s1, s2⟩ := (showsL_append le).1 s
  obtain ⟨_, _, he, s3, s4⟩ := s2
  simp only [List.cons.injEq] at he
  obtain ⟨rfl, rfl⟩ := he
  rw [footL_append le] at d
  simp only [footL] at d
  obtain ⟨d1, d2, d3⟩ := List.nodup_append.1 d
  obtain ⟨d4, d5, d6⟩ := List.nodup_append.1 d2
  obtain ⟨u1, u2, u3, u4, u5⟩ := u
  obtain ⟨f1, f2⟩ := frameL (h' := h1) (fun x hx => u2 x (footL_lt s1 x hx)
    (fun hn => d3 x hx x (List.mem_append_left _ hn) rfl)) s1
  obtain ⟨g1, g2⟩ := frameL (h' := h1) (fun x hx => u2 x (footL_lt s4 x hx)
    (fun hn => d6 x hn x hx rfl)) s4
  refine ⟨u1, ?_, (showsL_append le).2 ⟨f1, _, _, rfl, u3, g1⟩, ?_, ?_⟩
  · intro x hx hn
    refine u2 x hx (fun hm => hn ?_)
    rw [footL_append le]
    simp only [footL]
    exact List.mem_append_right _ (List.mem_append_left _ hm)
  · rw [footL_append le]
    simp only [footL, f2, g2]
    refine List.nodup_append.2 ⟨d1, List.nodup_append.2 ⟨u4, d5, ?_⟩, ?_⟩
    · intro x hx y hy he
      subst he
      rcases u5 x hx with hm | hm
      · exact d6 x hm x hy rfl
      · have := footL_lt s4 x hy; omega
    · intro x hx y hy he
      subst he
      rcases List.mem_append.1 hy with hy | hy
      · rcases u5 x hy with hm | hm
        · exact d3 x hx x (List.mem_append_left _ hm) rfl
        · have := footL_lt s1 x hx; omega
      · exact d3 x hx x (List.mem_append_right _ hy) rfl
  · intro x hx
    rw [footL_append le] at hx ⊢
    simp only [footL, f2, g2, List.mem_append] at hx ⊢
    rcases hx with hx | hx | hx
    · exact Or.inl (Or.inl hx)
    · rcases u5 x hx with hm | hm
      · exact Or.inl (Or.inr (Or.inl hm))
      · exact Or.inr hm
    · exact Or.inl (Or.inr (Or.inr hx))

/-- A new value is added at the end. -/
theorem updL_snoc {h h1 : Heap} {ts : List Tree} {vs : List Val} {t : Tree} {e : Val}
    (s : ShowsL h ts vs) (d : (footL h ts vs).Nodup) (n : New h h1 t e) :
    UpdL h ts vs h1 (ts ++ [t]) (vs ++ [e]) := by
  have le := showsL_length s
  obtain ⟨⟨k, rfl⟩, n2, n3, n4⟩ := n
  obtain ⟨f1, f2⟩ := frameL (h' := h ++ k) (fun x hx => get_append (footL_lt s x hx)) s
  refine ⟨by simp, fun x hx _ => get_append hx, (showsL_append le).2 ⟨f1, _, _, rfl, n2, rfl⟩, ?_, ?_⟩
  · rw [footL_append le, f2]
    simp only [footL, List.append_nil]
    exact nodup_split d n3 (footL_lt s) n4
  · intro x hx
    rw [footL_append le, f2] at hx
    simp only [footL, List.append_nil, List.mem_append] at hx
    exact hx.imp id (n4 x)

theorem footL_sub {h : Heap} : ∀ {ts ts' : List Tree} {vs vs' : List Val},
    (∃ i, ts' = ts.eraseIdx i ∧ vs' = vs.eraseIdx i) → (footL h ts' vs').Sublist (footL h ts vs) := by
  intro ts
  induction ts with
  | nil => rintro _ vs _ ⟨i, rfl, rfl⟩; simp [footL]
  | cons t ts ih =>
    rintro _ vs _ ⟨i, rfl, rfl⟩
    cases vs with
    | nil => simp [footL]
    | cons v vs =>
      cases i with
      | zero => simp [footL]
      | succ i =>
        simp only [List.eraseIdx_cons_succ, footL]
        exact (List.Sublist.refl _).append (ih ⟨i, rfl, rfl⟩)

theorem showsL_erase {h : Heap} : ∀ {ts : List Tree} {vs : List Val} (i : Nat), ShowsL h ts vs →
    ShowsL h (ts.eraseIdx i) (vs.eraseIdx i)
  | [], _, i, s => by cases s; simp [ShowsL]
  | t :: ts, _, i, s => by
    obtain ⟨w, ws, rfl, s1, s2⟩ := s
    cases i with
    | zero => simpa using s2
    | succ i => exact ⟨_, _, rfl, s1, showsL_erase i s2⟩

theorem showsK_erase {h : Heap} : ∀ {ts : List Key} {vs : List Val} (i : Nat), ShowsK h ts vs →
    ShowsK h (ts.eraseIdx i) (vs.eraseIdx i)
  | [], _, i, s => by cases s; simp [ShowsK]
  | t :: ts, _, i, s => by
    obtain ⟨w, ws, rfl, s1, s2⟩ := s
    cases i with
    | zero => simpa using s2
    | succ i => exact ⟨_, _, rfl, s1, showsK_erase i s2⟩

theorem footK_erase : ∀ (vs : List Val) (i : Nat), (footK (vs.eraseIdx i)).Sublist (footK vs)
  | [], i => by simp
  | v :: vs, 0 => by rw [List.eraseIdx_cons_zero, footK_cons]; exact List.sublist_append_right _ _
  | v :: vs, i + 1 => by
    rw [List.eraseIdx_cons_succ, footK_cons, footK_cons v vs]
    exact (List.Sublist.refl _).append (footK_erase vs i)

/-- An element is taken out. -/
theorem updL_erase {h : Heap} {ts : List Tree} {vs : List Val} (i : Nat)
    (s : ShowsL h ts vs) (d : (footL h ts vs).Nodup) :
    UpdL h ts vs h (ts.eraseIdx i) (vs.eraseIdx i) := by
  have sub : (footL h (ts.eraseIdx i) (vs.eraseIdx i)).Sublist (footL h ts vs) := footL_sub ⟨i, rfl, rfl⟩
  exact ⟨Nat.le_refl _, fun _ _ _ => rfl, showsL_erase i s, d.sublist sub,
    fun x hx => Or.inl (sub.subset hx)⟩

/-- The operation reached the elements of an array; the block at `a2` now holds them. -/
theorem wrap_arr {h h1 h2 : Heap} {ts ts1 : List Tree} {vs vs1 ws1 : List Val} {a a2 : Nat}
    (ha : h[a]? = some (.vals vs)) (nd : a ∉ footL h ts (vs.take ts.length))
    (u : UpdL h ts (vs.take ts.length) h1 ts1 ws1)
    (hl : h1.length ≤ h2.length) (hg : ∀ x < h1.length, x ≠ a2 → h2[x]? = h1[x]?)
    (h2a : h2[a2]? = some (.vals vs1)) (hw : vs1.take ts1.length = ws1) (hle : ts1.length ≤ vs1.length)
    (ha2 : a2 = a ∨ h1.length ≤ a2) :
    Upd h (.arr ts) (.arr a ts.length) h2 (.arr ts1) (.arr a2 ts1.length) := by
  obtain ⟨u1, u2, u3, u4, u5⟩ := u
  have hlt := (List.getElem?_eq_some_iff.1 ha).1
  have out : a2 ∉ footL h1 ts1 ws1 := by
    intro hm
    have := footL_lt u3 _ hm
    rcases ha2 with rfl | hx
    · rcases u5 _ hm with hx | hx
      · exact nd hx
      · omega
    · omega
  obtain ⟨f1, f2⟩ := frameL (h' := h2)
    (fun x hx => hg x (footL_lt u3 x hx) (fun e => out (e ▸ hx))) u3
  refine ⟨by omega, ?_, ⟨a2, vs1, rfl, h2a, hle, by rw [hw]; exact f1⟩, ?_, ?_⟩
  · intro x hx hn
    simp only [foot, ha, List.mem_cons, not_or] at hn
    rw [hg x (by omega) (by rcases ha2 with rfl | h3; exact hn.1; omega)]
    exact u2 x hx hn.2
  · simp only [foot, h2a, hw, f2, List.nodup_cons]
    exact ⟨out, u4⟩
  · intro x hx
    simp only [foot, h2a, hw, f2, List.mem_cons] at hx
    simp only [foot, ha, List.mem_cons]
    rcases hx with rfl | hx
    · rcases ha2 with rfl | h3
      · exact Or.inl (Or.inl rfl)
      · right; omega
    · rcases u5 x hx with h3 | h3
      · exact Or.inl (Or.inr h3)
      · exact Or.inr h3

/-- The operation reached the entries of a map; the block at `a2` now holds them. -/
theorem wrap_map {h h1 h2 : Heap} {ks ks1 : List Key} {ts ts1 : List Tree}
    {kvs vs kvs1 vs1 : List Val} {a a2 : Nat}
    (ha : h[a]? = some (.table kvs vs)) (nd : a ∉ footK kvs ++ footL h ts vs)
    (u : UpdE h ts kvs vs h1 ks1 ts1 kvs1 vs1)
    (hl : h1.length ≤ h2.length) (hg : ∀ x < h1.length, x ≠ a2 → h2[x]? = h1[x]?)
    (h2a : h2[a2]? = some (.table kvs1 vs1)) (ha2 : a2 = a ∨ h1.length ≤ a2) :
    Upd h (.map ks ts) (.map a) h2 (.map ks1 ts1) (.map a2) := by
  obtain ⟨u1, u2, u0, u3, u4, u5⟩ := u
  have hlt := (List.getElem?_eq_some_iff.1 ha).1
  have lt : ∀ x ∈ footK kvs1 ++ footL h1 ts1 vs1, x < h1.length := by
    intro x hx
    rcases List.mem_append.1 hx with hx | hx
    · exact showsK_lt u0 x hx
    · exact footL_lt u3 x hx
  have out : a2 ∉ footK kvs1 ++ footL h1 ts1 vs1 := by
    intro hm
    have := lt _ hm
    rcases ha2 with rfl | hx
    · rcases u5 _ hm with hx | hx
      · exact nd hx
      · omega
    · omega
  have agree : ∀ x ∈ footK kvs1 ++ footL h1 ts1 vs1, h2[x]? = h1[x]? :=
    fun x hx => hg x (lt x hx) (fun e => out (e ▸ hx))
  obtain ⟨f1, f2⟩ := frameL (h' := h2) (fun x hx => agree x (List.mem_append_right _ hx)) u3
  have f3 := showsK_frame (h' := h2) (fun x hx => agree x (List.mem_append_left _ hx)) u0
  refine ⟨by omega, ?_, ⟨a2, kvs1, vs1, rfl, h2a, f3, f1⟩, ?_, ?_⟩
  · intro x hx hn
    simp only [foot, ha, List.mem_cons, not_or] at hn
    rw [hg x (by omega) (by rcases ha2 with rfl | h3; exact hn.1; omega)]
    exact u2 x hx hn.2
  · simp only [foot, h2a, f2, List.nodup_cons]
    exact ⟨out, u4⟩
  · intro x hx
    simp only [foot, h2a, f2, List.mem_cons] at hx
    simp only [foot, ha, List.mem_cons]
    rcases hx with rfl | hx
    · rcases ha2 with rfl | h3
      · exact Or.inl (Or.inl rfl)
      · right; omega
    · rcases u5 x hx with h3 | h3
      · exact Or.inl (Or.inr h3)
      · exact Or.inr h3

/-- Only the values of the entries changed. -/
theorem updE_vals {h h1 : Heap} {ks : List Key} {ts ts1 : List Tree} {kvs vs vs1 : List Val}
    (s : ShowsK h ks kvs) (d : (footK kvs ++ footL h ts vs).Nodup)
    (u : UpdL h ts vs h1 ts1 vs1) : UpdE h ts kvs vs h1 ks ts1 kvs vs1 := by
  obtain ⟨u1, u2, u3, u4, u5⟩ := u
  obtain ⟨d1, d2, d3⟩ := List.nodup_append.1 d
  have f := showsK_frame (h' := h1) (fun x hx => u2 x (showsK_lt s x hx)
    (fun hn => d3 x hx x hn rfl)) s
  refine ⟨u1, ?_, f, u3, List.nodup_append.2 ⟨d1, u4, ?_⟩, ?_⟩
  · intro x hx hn
    exact u2 x hx (fun hm => hn (List.mem_append_right _ hm))
  · intro x hx y hy he
    subst he
    rcases u5 x hy with hm | hm
    · exact d3 x hx x hm rfl
    · have := showsK_lt s x hx; omega
  · intro x hx
    rw [List.mem_append] at hx ⊢
    rcases hx with hx | hx
    · exact Or.inl (Or.inl hx)
    · exact (u5 x hx).imp Or.inr id

/-- A new entry at the end. -/
theorem updE_snoc {h h1 h2 : Heap} {ks : List Key} {ts : List Tree} {kvs vs : List Val} {k kv t e}
    (s0 : ShowsK h ks kvs) (s : ShowsL h ts vs) (d : (footK kvs ++ footL h ts vs).Nodup)
    (n0 : NewKey h h1 k kv) (n : New h1 h2 t e) :
    UpdE h ts kvs vs h2 (ks ++ [k]) (ts ++ [t]) (kvs ++ [kv]) (vs ++ [e]) := by
  have le := showsL_length s
  have le0 := showsK_length s0
  obtain ⟨⟨k1, rfl⟩, m2, m3, m4⟩ := n0
  obtain ⟨⟨k2, rfl⟩, n2, n3, n4⟩ := n
  obtain ⟨d1, d2, d3⟩ := List.nodup_append.1 d
  have app : h ++ k1 ++ k2 = h ++ (k1 ++ k2) := by simp
  obtain ⟨f1, f2⟩ := frameL (h' := h ++ k1 ++ k2)
    (fun x hx => by rw [app]; exact get_append (footL_lt s x hx)) s
  have f0 := showsK_frame (h' := h ++ k1 ++ k2)
    (fun x hx => by rw [app]; exact get_append (showsK_lt s0 x hx)) s0
  have g0 := showsKey_frame (h' := h ++ k1 ++ k2) (fun x hx => get_append (showsKey_lt m2 x hx)) m2
  have foots : footK (kvs ++ [kv]) ++ footL (h ++ k1 ++ k2) (ts ++ [t]) (vs ++ [e]) =
      (footK kvs ++ footK [kv]) ++ (footL h ts vs ++ foot (h ++ k1 ++ k2) t e) := by
    rw [footK_append, footL_append le, f2]
    simp [footL]
  refine ⟨by simp only [List.length_append]; omega, fun x hx _ => by rw [app]; exact get_append hx,
    (showsK_append le0).2 ⟨f0, _, _, rfl, g0, rfl⟩,
    (showsL_append le).2 ⟨f1, _, _, rfl, n2, rfl⟩, ?_, ?_⟩
  · rw [foots]
    refine List.nodup_append.2 ⟨nodup_split d1 m3 (showsK_lt s0) m4, ?_, ?_⟩
    · exact nodup_split (n := h.length) d2 n3 (footL_lt s)
        (fun x hx => by have := n4 x hx; simp at this; omega)
    · intro x hx y hy he
      subst he
      rcases List.mem_append.1 hx with hx | hx <;> rcases List.mem_append.1 hy with hy | hy
      · exact d3 x hx x hy rfl
      · have := showsK_lt s0 x hx; have := n4 x hy; simp at this; omega
      · have := m4 x hx; have := footL_lt s x hy; omega
      · have := showsKey_lt m2 x hx; have := n4 x hy; simp at *; omega
  · intro x hx
    rw [foots] at hx
    simp only [List.mem_append] at hx ⊢
    rcases hx with (hx | hx) | (hx | hx)
    · exact Or.inl (Or.inl hx)
    · exact Or.inr (m4 x hx)
    · exact Or.inl (Or.inr hx)
    · right; have := n4 x hx; simp at this; omega

theorem updE_erase {h : Heap} {ks : List Key} {ts : List Tree} {kvs vs : List Val} (i : Nat)
    (s0 : ShowsK h ks kvs) (s : ShowsL h ts vs) (d : (footK kvs ++ footL h ts vs).Nodup) :
    UpdE h ts kvs vs h (ks.eraseIdx i) (ts.eraseIdx i) (kvs.eraseIdx i) (vs.eraseIdx i) := by
  have sub := (footK_erase kvs i).append
    (show (footL h (ts.eraseIdx i) (vs.eraseIdx i)).Sublist (footL h ts vs) from footL_sub ⟨i, rfl, rfl⟩)
  exact ⟨Nat.le_refl _, fun _ _ _ => rfl, showsK_erase i s0, showsL_erase i s, d.sublist sub,
    fun x hx => Or.inl (sub.subset hx)⟩

theorem keyIs_shows {h : Heap} {k k' : Key} {v : Val} (s : ShowsKey h k' v) : keyIs h k v = decide (k' = k) := by
  cases k' with
  | num n =>
    cases s
    cases k with
    | num m => simp [keyIs, eq_comm]
    | str bs => simp [keyIs]
  | str bs =>
    obtain ⟨a, cs, rfl, h1, h2⟩ := s
    cases k with
    | num m => simp [keyIs]
    | str bs' =>
      simp only [keyIs, h1, h2, Key.str.injEq, decide_eq_decide]
      constructor
      · exact fun e => e.2
      · rintro rfl; exact ⟨rfl, rfl⟩

theorem find_shows {h : Heap} {k : Key} : ∀ {ks : List Key} {kvs : List Val}, ShowsK h ks kvs →
    kvs.findIdx? (keyIs h k) = ks.findIdx? (· = k)
  | [], _, s => by cases s; rfl
  | k' :: ks, _, s => by
    obtain ⟨w, ws, rfl, s1, s2⟩ := s
    rw [List.findIdx?_cons, List.findIdx?_cons, keyIs_shows s1, find_shows s2]

theorem set_other {h : Heap} {a x : Nat} {c : Cell} (ne : x ≠ a) : (h.set a c)[x]? = h[x]? := by
  rw [List.getElem?_set_ne (Ne.symm ne)]

theorem last_get {h : Heap} {c : Cell} : (h ++ [c])[h.length]? = some c := by simp

theorem set_same {h : Heap} {a : Nat} {c : Cell} (l : a < h.length) : (h.set a c)[a]? = some c := by
  simp [l]

theorem new_get {h h1 : Heap} {t v} (n : New h h1 t v) {a : Nat} {c : Cell} (e : h[a]? = some c) :
    h1[a]? = some c := by
  obtain ⟨⟨k, rfl⟩, -⟩ := n
  rw [get_append (List.getElem?_eq_some_iff.1 e).1]
  exact e

theorem newKey_get {h h1 : Heap} {t v} (n : NewKey h h1 t v) {a : Nat} {c : Cell} (e : h[a]? = some c) :
    h1[a]? = some c := by
  obtain ⟨⟨k, rfl⟩, -⟩ := n
  rw [get_append (List.getElem?_eq_some_iff.1 e).1]
  exact e

theorem new_le {h h1 : Heap} {t v} (n : New h h1 t v) : h.length ≤ h1.length := by
  obtain ⟨⟨k, rfl⟩, -⟩ := n
  simp

theorem newKey_le {h h1 : Heap} {t v} (n : NewKey h h1 t v) : h.length ≤ h1.length := by
  obtain ⟨⟨k, rfl⟩, -⟩ := n
  simp

theorem new_shift {h h0 h1 : Heap} {t v} (n0 : ∃ k, h0 = h ++ k) (n : New h0 h1 t v) : New h h1 t v := by
  obtain ⟨k0, rfl⟩ := n0
  obtain ⟨⟨k, rfl⟩, n2, n3, n4⟩ := n
  exact ⟨⟨k0 ++ k, by simp⟩, n2, n3, fun x hx => by have := n4 x hx; simp at this; omega⟩

theorem upd_same {h : Heap} {t : Tree} {v : Val} (s : Shows h t v) (d : (foot h t v).Nodup) :
    Upd h t v h t v := ⟨Nat.le_refl _, fun _ _ _ => rfl, s, d, fun _ hx => Or.inl hx⟩

/-- What an action does in memory is what the program means by it. -/
theorem act_ok {h : Heap} {t t1 : Tree} {v : Val} (act : Act) (s : Shows h t v)
    (d : (foot h t v).Nodup) (e : actTree act t = some t1) :
    ∃ h1 v1, doAct h v act = some (h1, v1) ∧ Upd h t v h1 t1 v1 := by
  cases act with
  | set t' =>
    simp only [actTree, Option.some.injEq] at e
    subst e
    exact ⟨_, _, rfl, upd_of_new (make_new h t')⟩
  | push t' =>
    cases t <;> simp only [actTree, Option.some.injEq, reduceCtorEq] at e
    subst e
    rename_i ts
    obtain ⟨a, vs, rfl, h1, h2, h3⟩ := s
    simp only [foot, h1, List.nodup_cons] at d
    have n := make_new h t'
    have ha := (List.getElem?_eq_some_iff.1 h1).1
    have u := updL_snoc h3 d.2 n
    have hl : (ts ++ [t']).length = ts.length + 1 := by simp
    have g := new_get n h1
    have nle := new_le n
    simp only [doAct, g]
    by_cases c : ts.length < vs.length
    · rw [if_pos c]
      refine ⟨_, _, rfl, ?_⟩
      rw [← hl]
      refine wrap_arr h1 d.1 u (h2 := _) (by simp) (fun x _ hx => set_other hx) (set_same (by omega))
        ?_ ?_ (Or.inl rfl)
      · rw [hl, List.take_add_one, List.take_set_of_le (Nat.le_refl _)]
        simp [c]
      · simp; omega
    · rw [if_neg c]
      have hv : vs.length = ts.length := by omega
      refine ⟨_, _, rfl, ?_⟩
      rw [← hl]
      refine wrap_arr h1 d.1 u (h2 := _) (by simp) (fun x hx _ => get_append hx) last_get
        ?_ ?_ (Or.inr (Nat.le_refl _))
      · have e1 : (vs.take ts.length).length = ts.length := by simp; omega
        rw [hl, List.take_append, e1, List.take_of_length_le (by rw [e1]; omega)]
        simp
      · simp; omega
  | pop =>
    cases t <;> simp only [actTree, reduceCtorEq] at e
    rename_i ts
    split at e
    · simp at e
    · rename_i ne
      simp only [Option.some.injEq] at e
      subst e
      obtain ⟨a, vs, rfl, h1, h2, h3⟩ := s
      simp only [foot, h1, List.nodup_cons] at d
      have pos : 0 < ts.length := List.length_pos_of_ne_nil ne
      have hl : ts.dropLast.length = ts.length - 1 := by simp
      simp only [doAct]
      rw [if_pos pos]
      refine ⟨_, _, rfl, ?_⟩
      rw [← hl]
      have u := updL_erase (ts.length - 1) h3 d.2
      have e1 : ts.eraseIdx (ts.length - 1) = ts.dropLast := List.eraseIdx_length_sub_one
      rw [e1] at u
      refine wrap_arr h1 d.1 u (h2 := h) (Nat.le_refl _) (fun x _ _ => rfl) h1 ?_ (by simp; omega) (Or.inl rfl)
      rw [hl, List.eraseIdx_eq_take_drop_succ, List.drop_of_length_le (by simp; omega)]
      simp [List.take_take]
  | removeAt i =>
    cases t <;> simp only [actTree, reduceCtorEq] at e
    rename_i ts
    split at e
    · rename_i hi
      simp only [Option.some.injEq] at e
      subst e
      obtain ⟨a, vs, rfl, h1, h2, h3⟩ := s
      simp only [foot, h1, List.nodup_cons] at d
      have ha := (List.getElem?_eq_some_iff.1 h1).1
      have hl : (ts.eraseIdx i).length = ts.length - 1 := List.length_eraseIdx_of_lt hi
      have hl2 : ((vs.take ts.length).eraseIdx i).length = ts.length - 1 := by
        rw [List.length_eraseIdx_of_lt (by simp; omega)]; simp; omega
      simp only [doAct, h1]
      rw [if_pos hi]
      refine ⟨_, _, rfl, ?_⟩
      rw [← hl]
      have u := updL_erase i h3 d.2
      refine wrap_arr h1 d.1 u (h2 := _) (by simp) (fun x _ hx => set_other hx) (set_same ha) ?_ ?_
        (Or.inl rfl)
      · rw [hl, List.take_append, hl2, List.take_of_length_le (by omega)]
        simp
      · rw [hl, List.length_append, hl2]; simp
    · simp at e
  | clear =>
    cases t <;> simp only [actTree, Option.some.injEq, reduceCtorEq] at e <;> subst e
    · obtain ⟨a, vs, rfl, h1, h2, h3⟩ := s
      simp only [foot, h1, List.nodup_cons] at d
      refine ⟨_, _, rfl, ?_⟩
      exact wrap_arr (ts1 := []) (ws1 := []) h1 d.1 ⟨Nat.le_refl _, fun _ _ _ => rfl, rfl, by simp [footL], by simp [footL]⟩
        (Nat.le_refl _) (fun x _ _ => rfl) h1 (by simp) (by simp) (Or.inl rfl)
    · obtain ⟨a, kvs, vs, rfl, h1, h2, h3⟩ := s
      simp only [foot, h1, List.nodup_cons] at d
      have ha := (List.getElem?_eq_some_iff.1 h1).1
      refine ⟨_, _, rfl, ?_⟩
      exact wrap_map (ks1 := []) (ts1 := []) h1 d.1
        ⟨Nat.le_refl _, fun _ _ _ => rfl, rfl, rfl, by simp [footL, footK], by simp [footL, footK]⟩
        (by simp) (fun x _ hx => set_other hx) (set_same ha) (Or.inl rfl)
  | put grow k t' =>
    cases t <;> simp only [actTree, reduceCtorEq] at e
    rename_i ks ts
    obtain ⟨a, kvs, vs, rfl, h1, h2, h3⟩ := s
    simp only [foot, h1, List.nodup_cons] at d
    have ha := (List.getElem?_eq_some_iff.1 h1).1
    have n0 := makeKey_new h k
    have n := make_new (makeKey h k).1 t'
    have n' := new_shift n0.1 n
    have g := new_get n' h1
    have nle := new_le n'
    have key : ∃ h9 ks1 ts1 kvs1 vs1, UpdE h ts kvs vs h9 ks1 ts1 kvs1 vs1 ∧ t1 = .map ks1 ts1 ∧
        h9 = (make (makeKey h k).1 t').1 ∧
        mapPut (make (makeKey h k).1 t').1 kvs vs k (makeKey h k).2 (make (makeKey h k).1 t').2 =
          (kvs1, vs1) := by
      have sk : ShowsK (make (makeKey h k).1 t').1 ks kvs := by
        obtain ⟨⟨kk, hk⟩, -⟩ := n'
        rw [hk]
        exact showsK_frame (fun x hx => get_append (showsK_lt h2 x hx)) h2
      unfold mapPut
      rw [find_shows sk]
      split at e <;> rename_i he <;> rw [he] <;> simp only [Option.some.injEq] at e <;> subst e
      · rename_i i
        refine ⟨_, _, _, _, _, updE_vals h2 d.2 (ts1 := ts.set i t') ?_, rfl, rfl, rfl⟩
        by_cases hi : i < ts.length
        · have el := showsL_length h3
          obtain ⟨d1, d2, d3⟩ := List.nodup_append.1 d.2
          exact updL_mid h3 d2 (List.getElem?_eq_getElem hi)
            (List.getElem?_eq_getElem (by omega)) (upd_of_new n')
        · have el := showsL_length h3
          obtain ⟨d1, d2, d3⟩ := List.nodup_append.1 d.2
          rw [List.set_eq_of_length_le (by omega), List.set_eq_of_length_le (by omega)]
          obtain ⟨⟨kk, hk⟩, -⟩ := n'
          rw [hk]
          obtain ⟨f1, f2⟩ := frameL (h' := h ++ kk) (fun x hx => get_append (footL_lt h3 x hx)) h3
          exact ⟨by simp, fun x hx _ => get_append hx, f1, by rw [f2]; exact d2,
            fun x hx => Or.inl (by rw [f2] at hx; exact hx)⟩
      · exact ⟨_, _, _, _, _, updE_snoc h2 h3 d.2 n0 n, rfl, rfl, rfl⟩
    obtain ⟨h9, ks1, ts1, kvs1, vs1, u, rfl, rfl, em⟩ := key
    simp only [doAct, g, em]
    cases grow with
    | true =>
      exact ⟨_, _, rfl, wrap_map h1 d.1 u (by simp) (fun x hx _ => get_append hx) last_get
        (Or.inr (Nat.le_refl _))⟩
    | false =>
      exact ⟨_, _, rfl, wrap_map h1 d.1 u (by simp) (fun x _ hx => set_other hx) (set_same (by omega))
        (Or.inl rfl)⟩
  | del k =>
    cases t <;> simp only [actTree, reduceCtorEq] at e
    rename_i ks ts
    obtain ⟨a, kvs, vs, rfl, h1, h2, h3⟩ := s
    have d' := d
    simp only [foot, h1, List.nodup_cons] at d
    have ha := (List.getElem?_eq_some_iff.1 h1).1
    simp only [doAct, h1]
    rw [find_shows h2]
    split at e <;> rename_i he <;> rw [he] <;> simp only [Option.some.injEq] at e <;> subst e
    · exact ⟨_, _, rfl, wrap_map h1 d.1 (updE_erase _ h2 h3 d.2) (by simp) (fun x _ hx => set_other hx)
        (set_same ha) (Or.inl rfl)⟩
    · exact ⟨_, _, rfl, upd_same ⟨a, kvs, vs, rfl, h1, h2, h3⟩ d'⟩

theorem foot_mem_L {h : Heap} {ts : List Tree} {vs : List Val} {i : Nat} {t : Tree} {e : Val}
    (s : ShowsL h ts vs) (ht : ts[i]? = some t) (hv : vs[i]? = some e) :
    Shows h t e ∧ (foot h t e).Sublist (footL h ts vs) := by
  obtain ⟨a1, a2, rfl, la⟩ := split_at ht
  obtain ⟨b1, b2, rfl, lb⟩ := split_at hv
  have le : a1.length = b1.length := by omega
  obtain ⟨s1, s2⟩ := (showsL_append le).1 s
  obtain ⟨_, _, he, s3, s4⟩ := s2
  simp only [List.cons.injEq] at he
  obtain ⟨rfl, rfl⟩ := he
  refine ⟨s3, ?_⟩
  rw [footL_append le]
  simp only [footL]
  exact (List.sublist_append_left _ _).trans (List.sublist_append_right _ _)

/-- What an operation does in memory is what the program means by it. -/
theorem upd_ok : ∀ (path : List Step) (act : Act) {h : Heap} {t t1 : Tree} {v : Val}, Shows h t v →
    (foot h t v).Nodup → updTree path act t = some t1 →
    ∃ h1 v1, upd path act h v = some (h1, v1) ∧ Upd h t v h1 t1 v1
  | [], act, h, t, t1, v, s, d, e => act_ok act s d e
  | .idx i :: path, act, h, t, t1, v, s, d, e => by
    cases t <;> simp only [updTree, reduceCtorEq] at e
    rename_i ts
    split at e
    · rename_i te hte
      simp only [Option.map_eq_some_iff] at e
      obtain ⟨t2, e2, rfl⟩ := e
      obtain ⟨a, vs, rfl, h1, h2, h3⟩ := s
      simp only [foot, h1, List.nodup_cons] at d
      have hi := (List.getElem?_eq_some_iff.1 hte).1
      have hv : vs[i]? = some (vs[i]'(by omega)) := List.getElem?_eq_getElem _
      have hv' : (vs.take ts.length)[i]? = some (vs[i]'(by omega)) := by
        rw [List.getElem?_take_of_lt hi]; exact hv
      obtain ⟨s2, sub⟩ := foot_mem_L h3 hte hv'
      obtain ⟨h5, e5, eq5, u5⟩ := upd_ok path act s2 (d.2.sublist sub) e2
      have ha := (List.getElem?_eq_some_iff.1 h1).1
      have g : h5[a]? = some (.vals vs) := by
        rw [u5.2.1 a ha (fun hm => d.1 (sub.subset hm))]; exact h1
      refine ⟨h5.set a (.vals (vs.set i e5)), .arr a ts.length, ?_, ?_⟩
      · simp only [upd, h1, hv, eq5, g]
        rw [if_pos hi]
      · have u := updL_mid h3 d.2 hte hv' u5
        have hl : (ts.set i t2).length = ts.length := by simp
        have w := wrap_arr (h2 := h5.set a (.vals (vs.set i e5))) (vs1 := vs.set i e5) (a2 := a) h1 d.1 u
          (by simp) (fun x _ hx => set_other hx)
          (set_same (by have := u5.1; omega)) (by rw [hl, List.take_set]) (by simp; omega) (Or.inl rfl)
        rw [hl] at w
        exact w
    · simp at e
  | .key k :: path, act, h, t, t1, v, s, d, e => by
    cases t <;> simp only [updTree, reduceCtorEq] at e
    rename_i ks ts
    split at e
    · rename_i i hf
      split at e
      · rename_i te hte
        simp only [Option.map_eq_some_iff] at e
        obtain ⟨t2, e2, rfl⟩ := e
        obtain ⟨a, kvs, vs, rfl, h1, h2, h3⟩ := s
        simp only [foot, h1, List.nodup_cons] at d
        obtain ⟨d1, d2, d3⟩ := List.nodup_append.1 d.2
        have hi := (List.getElem?_eq_some_iff.1 hte).1
        have el := showsL_length h3
        have hv : vs[i]? = some (vs[i]'(by omega)) := List.getElem?_eq_getElem _
        obtain ⟨s2, sub⟩ := foot_mem_L h3 hte hv
        obtain ⟨h5, e5, eq5, u5⟩ := upd_ok path act s2 (d2.sublist sub) e2
        have ha := (List.getElem?_eq_some_iff.1 h1).1
        have g : h5[a]? = some (.table kvs vs) := by
          rw [u5.2.1 a ha (fun hm => d.1 (List.mem_append_right _ (sub.subset hm)))]; exact h1
        refine ⟨h5.set a (.table kvs (vs.set i e5)), .map a, ?_, ?_⟩
        · have hf2 : kvs.findIdx? (keyIs h k) = some i := by rw [find_shows h2]; exact hf
          simp only [upd, h1, hf2, hv, eq5, g]
        · have u := updL_mid h3 d2 hte hv u5
          exact wrap_map h1 d.1 (updE_vals h2 d.2 u)
            (by simp) (fun x _ hx => set_other hx)
            (set_same (by have := u5.1; omega)) (Or.inl rfl)
      · simp at e
    · simp at e
  | .field j :: path, act, h, t, t1, v, s, d, e => by
    cases t <;> simp only [updTree, reduceCtorEq] at e
    rename_i ts
    split at e
    · rename_i te hte
      simp only [Option.map_eq_some_iff] at e
      obtain ⟨t2, e2, rfl⟩ := e
      obtain ⟨vs, rfl, h3⟩ := s
      simp only [foot] at d
      have hi := (List.getElem?_eq_some_iff.1 hte).1
      have el := showsL_length h3
      have hv : vs[j]? = some (vs[j]'(by omega)) := List.getElem?_eq_getElem _
      obtain ⟨s2, sub⟩ := foot_mem_L h3 hte hv
      obtain ⟨h5, e5, eq5, u5⟩ := upd_ok path act s2 (d.sublist sub) e2
      refine ⟨h5, .rcd (vs.set j e5), ?_, ?_⟩
      · simp only [upd, hv, eq5]
      · obtain ⟨u1, u2, u3, u4, u6⟩ := updL_mid h3 d hte hv u5
        exact ⟨u1, by simpa only [foot] using u2, ⟨_, rfl, u3⟩, by simpa only [foot] using u4,
          by simpa only [foot] using u6⟩
    · simp at e

/-- Values which share no block are independent. -/
theorem independent_of_apart : ∀ (ops : List (Bool × Op)) {h : Heap} {s t : Tree} {v w : Val},
    Shows h s v → Shows h t w → (foot h s v).Nodup → (foot h t w).Nodup →
    (∀ x ∈ foot h s v, x ∉ foot h t w) →
    ∀ {tv tw}, side true ops s = some tv → side false ops t = some tw →
    ∃ h1 v1 w1, exec ops h v w = some (h1, v1, w1) ∧ Shows h1 tv v1 ∧ Shows h1 tw w1
  | [], h, s, t, v, w, sv, sw, _, _, _, tv, tw, e1, e2 => by
    simp only [side, Option.some.injEq] at e1 e2
    subst e1 e2
    exact ⟨h, v, w, rfl, sv, sw⟩
  | (true, op) :: ops, h, s, t, v, w, sv, sw, dv, dw, ap, tv, tw, e1, e2 => by
    simp only [side, if_true, Bool.true_eq_false, if_false] at e1 e2
    split at e1
    · rename_i s1 hs
      obtain ⟨h1, v1, eq, u1, u2, u3, u4, u5⟩ := upd_ok op.path op.act sv dv hs
      obtain ⟨f1, f2⟩ := frame (h' := h1)
        (fun x hx => u2 x (foot_lt sw x hx) (fun hm => ap x hm hx)) sw
      simp only [exec, eq]
      refine independent_of_apart ops u3 f1 u4 (by rw [f2]; exact dw) ?_ e1 e2
      intro x hx hy
      rw [f2] at hy
      rcases u5 x hx with hm | hm
      · exact ap x hm hy
      · have := foot_lt sw x hy; omega
    · simp at e1
  | (false, op) :: ops, h, s, t, v, w, sv, sw, dv, dw, ap, tv, tw, e1, e2 => by
    simp only [side, if_true, Bool.false_eq_true, if_false] at e1 e2
    split at e2
    · rename_i t1 hs
      obtain ⟨h1, w1, eq, u1, u2, u3, u4, u5⟩ := upd_ok op.path op.act sw dw hs
      obtain ⟨f1, f2⟩ := frame (h' := h1)
        (fun x hx => u2 x (foot_lt sv x hx) (fun hm => ap x hx hm)) sv
      simp only [exec, eq]
      refine independent_of_apart ops f1 u3 (by rw [f2]; exact dv) u4 ?_ e1 e2
      intro x hx hy
      rw [f2] at hx
      rcases u5 x hy with hm | hm
      · exact ap x hx hm
      · have := foot_lt sv x hx; omega
    · simp at e2


/-! ## Types -/

/-- Types of the language. A map key is a string (`none`) or of a named scalar type; a sized array carries
what is written after the comma. -/
inductive Ty where
  | base (n : Name)
  | str
  | ptr (t : Ty)
  | arr (t : Ty) (size : Option Name)
  | map (key : Option Name) (v : Ty)
  | struct (n : Name)

def keyTyName : Option Name → Name
  | none => "string".toList
  | some n => n

/-- How a type is written. -/
def Ty.name : Ty → Name
  | .base n => n
  | .str => "string".toList
  | .ptr t => '^' :: t.name
  | .arr t none => '[' :: (t.name ++ [']'])
  | .arr t (some k) => '[' :: (t.name ++ ',' :: (k ++ [']']))
  | .map k v => "map[".toList ++ (keyTyName k ++ ':' :: (v.name ++ [']']))
  | .struct n => n

/-- The struct declarations of a program. -/
abbrev Decls := List (Name × List Ty)

def Decls.env (D : Decls) : Env := D.map (fun d => ⟨d.1, d.2.map Ty.name⟩)

def Decls.fields (D : Decls) (n : Name) : Option (List Ty) := (D.find? (fun d => d.1 = n)).map Prod.snd

/-- An identifier: no punctuation of the type language, and not the name of the string type. -/
def Word (n : Name) : Prop := n ≠ [] ∧ (∀ c ∈ n, c ∉ "[],:^".toList) ∧ n ≠ "string".toList

/-- A type of a program with the given declarations. -/
def Legal (D : Decls) : Ty → Prop
  | .base n => Word n ∧ D.fields n = none
  | .str => True
  | .ptr _ => True
  | .arr t _ => Legal D t
  | .map k v => (∀ n, k = some n → Word n) ∧ Legal D v
  | .struct n => Word n ∧ D.fields n ≠ none

/-- The structs stored inside values of a type (not those behind pointers). -/
def structsOf : Ty → List Name
  | .arr t _ => structsOf t
  | .map _ v => structsOf v
  | .struct n => [n]
  | _ => []

def KeyTyped : Key → Option Name → Prop
  | .num _, some _ => True
  | .str _, none => True
  | _, _ => False

mutual
/-- Contents of the given type. The keys of a map are distinct. -/
def Typed (D : Decls) : Tree → Ty → Prop
  | .num _, ty => ∃ n, ty = .base n
  | .str _, ty => ty = .str
  | .ptr _, ty => ∃ t, ty = .ptr t
  | .arr ts, ty => ∃ t k, ty = .arr t k ∧ TypedAll D ts t
  | .map ks ts, ty => ∃ k t, ty = .map k t ∧ ks.length = ts.length ∧ ks.Nodup ∧
      (∀ key ∈ ks, KeyTyped key k) ∧ TypedAll D ts t
  | .rcd ts, ty => ∃ n fs, ty = .struct n ∧ D.fields n = some fs ∧ TypedF D ts fs
def TypedAll (D : Decls) : List Tree → Ty → Prop
  | [], _ => True
  | t :: ts, ty => Typed D t ty ∧ TypedAll D ts ty
def TypedF (D : Decls) : List Tree → List Ty → Prop
  | [], fs => fs = []
  | t :: ts, fs => ∃ g gs, fs = g :: gs ∧ Typed D t g ∧ TypedF D ts gs
end

/-- No struct contains itself, at any depth, and structs are nested at most 64 deep: `rank` counts the
levels below a struct. -/
def Layered (D : Decls) (rank : Name → Nat) : Prop :=
  ∀ n fs, D.fields n = some fs → rank n < 64 ∧ ∀ f ∈ fs, ∀ m ∈ structsOf f, rank m < rank n

/-- Sized arrays do not occur inside arrays, and the names of key types are at most 127 characters long. -/
def Cuttable : Ty → Prop
  | .arr t _ => ',' ∉ t.name ∧ Cuttable t
  | .map k v => (keyTyName k).length ≤ 127 ∧ Cuttable v
  | _ => True

/-- The types for which the emitted copy is deep. -/
structure Copyable (D : Decls) (ty : Ty) : Prop where
  legal : Legal D ty
  cut : Cuttable ty
  short : ty.name.length ≤ 255

/-! ## Which plans copy deeply -/

inductive Flat (D : Decls) : Ty → Prop
  | base (n : Name) : Flat D (.base n)
  | ptr (t : Ty) : Flat D (.ptr t)
  | struct (n : Name) (fs : List Ty) : D.fields n = some fs → (∀ f ∈ fs, Flat D f) → Flat D (.struct n)

mutual
def Good (D : Decls) : Plan → Ty → Prop
  | .same, ty => Flat D ty
  | .str, ty => ty = .str
  | .arr, ty => ∃ t k, ty = .arr t k ∧ Flat D t
  | .arrEach p, ty => ∃ t k, ty = .arr t k ∧ Good D p t
  | .map, ty => ∃ k v, ty = .map k v ∧ Flat D v
  | .mapEach b p, ty => ∃ k v, ty = .map k v ∧ b = k.isNone ∧ Good D p v
  | .rcd ps, ty => ∃ n fs, ty = .struct n ∧ D.fields n = some fs ∧ GoodL D ps fs
def GoodL (D : Decls) : List Plan → List Ty → Prop
  | [], fs => fs = []
  | p :: ps, fs => ∃ g gs, fs = g :: gs ∧ Good D p g ∧ GoodL D ps gs
end

mutual
theorem flat_foot {D : Decls} {h : Heap} : ∀ {t : Tree} {ty : Ty} {v : Val}, Typed D t ty → Flat D ty →
    foot h t v = []
  | .num _, _, _, _, _ => by simp [foot]
  | .ptr _, _, _, _, _ => by simp [foot]
  | .str _, _, _, ht, hf => by cases ht; cases hf
  | .arr _, _, _, ht, hf => by obtain ⟨t, k, rfl, _⟩ := ht; cases hf
  | .map _ _, _, _, ht, hf => by obtain ⟨t, k, rfl, _⟩ := ht; cases hf
  | .rcd ts, _, v, ht, hf => by
    obtain ⟨n, fs, rfl, e, h1⟩ := ht
    cases hf with
    | struct _ fs' e' h2 =>
      rw [e] at e'
      cases e'
      cases v <;> simp only [foot]
      exact flat_footF h1 h2
theorem flat_footF {D : Decls} {h : Heap} : ∀ {ts : List Tree} {fs : List Ty} {vs : List Val},
    TypedF D ts fs → (∀ f ∈ fs, Flat D f) → footL h ts vs = []
  | [], _, _, _, _ => by simp [footL]
  | t :: ts, _, vs, ht, hf => by
    obtain ⟨g, gs, rfl, h1, h2⟩ := ht
    cases vs with
    | nil => simp [footL]
    | cons v vs =>
      simp only [footL]
      rw [flat_foot h1 (hf g (by simp)), flat_footF h2 (fun f hm => hf f (by simp [hm]))]
      rfl
end

theorem flat_footL {D : Decls} {h : Heap} : ∀ {ts : List Tree} {ty : Ty} {vs : List Val},
    TypedAll D ts ty → Flat D ty → footL h ts vs = []
  | [], _, _, _, _ => by simp [footL]
  | t :: ts, ty, vs, ht, hf => by
    cases vs with
    | nil => simp [footL]
    | cons v vs =>
      simp only [footL]
      rw [flat_foot ht.1 hf, flat_footL ht.2 hf]
      rfl

theorem take_len {bs cs : List Byte} (e : cs.take bs.length = bs) : bs.length ≤ cs.length := by
  have := congrArg List.length e
  simp at this
  omega

theorem strNew_new {h : Heap} {bs : List Byte} {v : Val} (s : ShowsKey h (.str bs) v) :
    ∃ h' v', strNew h v = some (h', v') ∧ NewKey h h' (.str bs) v' ∧ New h h' (.str bs) v' := by
  obtain ⟨a, cs, rfl, h1, h2⟩ := s
  refine ⟨_, _, by simp only [strNew, h1]; rw [if_pos (take_len h2)], ?_⟩
  rw [h2]
  exact ⟨makeKey_new h (.str bs), by have := make_new h (.str bs); simpa [make] using this⟩

theorem newKey_num (h : Heap) (n : Int) : NewKey h h (.num n) (.num n) :=
  ⟨⟨[], by simp⟩, rfl, by simp [footK], by simp [footK]⟩

theorem copyKeys_new : ∀ {h : Heap} {ks : List Key} {kvs : List Val}, ShowsK h ks kvs →
    ∃ h' kvs', copyKeys h kvs = some (h', kvs') ∧ NewK h h' ks kvs'
  | h, [], _, s => by cases s; exact ⟨h, [], rfl, newK_nil h⟩
  | h, k :: ks, _, s => by
    obtain ⟨w, ws, rfl, s1, s2⟩ := s
    cases k with
    | num n =>
      cases s1
      obtain ⟨h', kvs', e, nk⟩ := copyKeys_new s2
      exact ⟨h', .num n :: kvs', by simp only [copyKeys, e], newK_cons (newKey_num h n) nk⟩
    | str bs =>
      obtain ⟨h1, w1, e1, n1, -⟩ := strNew_new s1
      have s3 : ShowsK h1 ks ws := by
        obtain ⟨⟨kk, rfl⟩, -⟩ := n1
        exact showsK_frame (fun x hx => get_append (showsK_lt s2 x hx)) s2
      obtain ⟨h', kvs', e, nk⟩ := copyKeys_new s3
      obtain ⟨a, cs, rfl, -, -⟩ := s1
      exact ⟨h', w1 :: kvs', by simp only [copyKeys, e1, e], newK_cons n1 nk⟩

theorem eachVal_new {f : Heap → Val → Option (Heap × Val)} {D : Decls} {ty : Ty}
    (hf : ∀ {t h v}, Typed D t ty → Shows h t v → ∃ h' v', f h v = some (h', v') ∧ New h h' t v') :
    ∀ {ts : List Tree} {h : Heap} {vs : List Val}, TypedAll D ts ty → ShowsL h ts vs →
      ∃ h' vs', eachVal f h vs = some (h', vs') ∧ NewL h h' ts vs'
  | [], h, _, _, s => by cases s; exact ⟨h, [], rfl, newL_nil h⟩
  | t :: ts, h, _, ht, s => by
    obtain ⟨w, ws, rfl, s1, s2⟩ := s
    obtain ⟨h1, w1, e1, n1⟩ := hf ht.1 s1
    have s3 : ShowsL h1 ts ws := by
      obtain ⟨⟨kk, rfl⟩, -⟩ := n1
      exact (frameL (fun x hx => get_append (footL_lt s2 x hx)) s2).1
    obtain ⟨h', vs', e, nk⟩ := eachVal_new hf ht.2 s3
    exact ⟨h', w1 :: vs', by simp only [eachVal, e1, e], newL_cons n1 nk⟩

theorem newE_snoc {h0 h h1 h2 : Heap} {ks : List Key} {ts : List Tree} {kvs vs : List Val} {k kv t e}
    (n : NewE h0 h ks ts kvs vs) (n1 : New h h1 t e) (n2 : NewKey h1 h2 k kv) :
    NewE h0 h2 (ks ++ [k]) (ts ++ [t]) (kvs ++ [kv]) (vs ++ [e]) := by
  obtain ⟨⟨k0, rfl⟩, s0, s, d, l⟩ := n
  have le := showsL_length s
  have le0 := showsK_length s0
  obtain ⟨⟨k1, rfl⟩, m2, m3, m4⟩ := n1
  obtain ⟨⟨k2, rfl⟩, q2, q3, q4⟩ := n2
  have app : h0 ++ k0 ++ k1 ++ k2 = h0 ++ k0 ++ (k1 ++ k2) := by simp
  obtain ⟨f1, f2⟩ := frameL (h' := h0 ++ k0 ++ k1 ++ k2)
    (fun x hx => by rw [app]; exact get_append (footL_lt s x hx)) s
  have f0 := showsK_frame (h' := h0 ++ k0 ++ k1 ++ k2)
    (fun x hx => by rw [app]; exact get_append (showsK_lt s0 x hx)) s0
  obtain ⟨g1, g2⟩ := frame (h' := h0 ++ k0 ++ k1 ++ k2) (fun x hx => get_append (foot_lt m2 x hx)) m2
  obtain ⟨d1, d2, d3⟩ := List.nodup_append.1 d
  have foots : footK (kvs ++ [kv]) ++ footL (h0 ++ k0 ++ k1 ++ k2) (ts ++ [t]) (vs ++ [e]) =
      (footK kvs ++ footK [kv]) ++ (footL (h0 ++ k0) ts vs ++ foot (h0 ++ k0 ++ k1) t e) := by
    rw [footK_append, footL_append le, f2]
    simp only [footL, g2, List.append_nil]
  refine ⟨⟨k0 ++ k1 ++ k2, by simp⟩, (showsK_append le0).2 ⟨f0, _, _, rfl, q2, rfl⟩,
    (showsL_append le).2 ⟨f1, _, _, rfl, g1, rfl⟩, ?_, ?_⟩
  · rw [foots]
    refine List.nodup_append.2 ⟨nodup_split (n := (h0 ++ k0).length) d1 q3 (showsK_lt s0) ?_, ?_, ?_⟩
    · intro x hx; have := q4 x hx; simp only [List.length_append] at this ⊢; omega
    · exact nodup_split d2 m3 (footL_lt s) m4
    · intro x hx y hy he
      subst he
      rcases List.mem_append.1 hx with hx | hx <;> rcases List.mem_append.1 hy with hy | hy
      · exact d3 x hx x hy rfl
      · have := showsK_lt s0 x hx; have := m4 x hy; omega
      · have := q4 x hx; have := footL_lt s x hy; simp only [List.length_append] at *; omega
      · have := q4 x hx; have := foot_lt m2 x hy; omega
  · intro x hx
    rw [foots] at hx
    simp only [List.mem_append] at hx
    rcases hx with (hx | hx) | (hx | hx)
    · exact l x (List.mem_append_left _ hx)
    · have := q4 x hx; simp only [List.length_append] at this; omega
    · exact l x (List.mem_append_right _ hx)
    · have := m4 x hx; simp only [List.length_append] at this; omega

theorem keyOf_shows {h : Heap} {k : Key} {v : Val} (s : ShowsKey h k v) : keyOf h v = some k := by
  cases k with
  | num n => cases s; rfl
  | str bs =>
    obtain ⟨a, cs, rfl, h1, h2⟩ := s
    simp only [keyOf, h1]
    rw [if_pos (take_len h2), h2]

theorem eachEntry_new {f : Heap → Val → Option (Heap × Val)} {D : Decls} {ty : Ty} {kt : Option Name}
    (hf : ∀ {t h v}, Typed D t ty → Shows h t v → ∃ h' v', f h v = some (h', v') ∧ New h h' t v')
    {h0 : Heap} :
    ∀ {ks : List Key} {ts : List Tree} {h : Heap} {kvs vs : List Val} {kd td kvs2 vs2},
      ks.length = ts.length → (∀ k ∈ ks, KeyTyped k kt) → (kd ++ ks).Nodup →
      TypedAll D ts ty → ShowsK h ks kvs → ShowsL h ts vs → NewE h0 h kd td kvs2 vs2 →
      ∃ h' kvs' vs', eachEntry f kt.isNone h kvs vs kvs2 vs2 = some (h', kvs', vs') ∧
        NewE h0 h' (kd ++ ks) (td ++ ts) kvs' vs'
  | [], [], h, _, _, kd, td, kvs2, vs2, _, _, _, _, s0, s, n => by
    cases s0; cases s
    exact ⟨h, kvs2, vs2, by simp only [eachEntry], by simpa using n⟩
  | k :: ks, t :: ts, h, _, _, kd, td, kvs2, vs2, hl, hk, nd, ht, s0, s, n => by
    obtain ⟨w, ws, rfl, s1, s2⟩ := s
    obtain ⟨kw, kws, rfl, k1, k2⟩ := s0
    obtain ⟨h1, w1, e1, n1⟩ := hf ht.1 s1
    have fk : ShowsKey h1 k kw := by
      obtain ⟨⟨kk, rfl⟩, -⟩ := n1
      exact showsKey_frame (fun x hx => get_append (showsKey_lt k1 x hx)) k1
    have key : ∃ h2 kw1, (if kt.isNone then strNew h1 kw else some (h1, kw)) = some (h2, kw1) ∧
        NewKey h1 h2 k kw1 := by
      have := hk k (by simp)
      cases k with
      | num m =>
        cases kt with
        | none => exact this.elim
        | some _ => cases fk; exact ⟨h1, _, rfl, newKey_num h1 m⟩
      | str bs =>
        cases kt with
        | some _ => exact this.elim
        | none =>
          obtain ⟨h2, kw1, e, nn, -⟩ := strNew_new fk
          exact ⟨h2, kw1, e, nn⟩
    obtain ⟨h2, kw1, e2, n2⟩ := key
    have nE := newE_snoc n n1 n2
    have ko := keyOf_shows n2.2.1
    have notin : k ∉ kd := by
      intro hm
      exact (List.nodup_append.1 nd).2.2 k hm k (by simp) rfl
    have sk : ShowsK h2 kd kvs2 := by
      obtain ⟨⟨kk2, rfl⟩, -⟩ := n2
      obtain ⟨⟨kk1, rfl⟩, -⟩ := n1
      exact showsK_frame (fun x hx => by
        rw [List.append_assoc]; exact get_append (showsK_lt n.2.1 x hx)) n.2.1
    have put : mapPut h2 kvs2 vs2 k kw1 w1 = (kvs2 ++ [kw1], vs2 ++ [w1]) := by
      unfold mapPut
      rw [find_shows sk]
      have : kd.findIdx? (· = k) = none := by
        rw [List.findIdx?_eq_none_iff]
        intro x hx
        simp only [decide_eq_false_iff_not]
        rintro rfl
        exact notin hx
      rw [this]
    have s3 : ShowsL h2 ts ws := by
      obtain ⟨⟨kk2, rfl⟩, -⟩ := n2
      obtain ⟨⟨kk1, rfl⟩, -⟩ := n1
      exact (frameL (fun x hx => by
        rw [List.append_assoc]; exact get_append (footL_lt s2 x hx)) s2).1
    have s4 : ShowsK h2 ks kws := by
      obtain ⟨⟨kk2, rfl⟩, -⟩ := n2
      obtain ⟨⟨kk1, rfl⟩, -⟩ := n1
      exact showsK_frame (fun x hx => by
        rw [List.append_assoc]; exact get_append (showsK_lt k2 x hx)) k2
    obtain ⟨h', kvs', vs', e, nk⟩ := eachEntry_new hf (by simpa using hl)
      (fun k hk' => hk k (by simp [hk'])) (by simpa using nd) ht.2 s4 s3 nE
    refine ⟨h', kvs', vs', ?_, by simpa using nk⟩
    simp only [eachEntry, e1, e2, ko, put]
    exact e
  | [], _ :: _, _, _, _, _, _, _, _, hl, _, _, _, _, _, _ => by simp at hl
  | _ :: _, [], _, _, _, _, _, _, _, hl, _, _, _, _, _, _ => by simp at hl

mutual
/-- A good plan makes a new value with the same contents. -/
theorem run_good {D : Decls} : ∀ (p : Plan) {ty : Ty} {t : Tree} {h : Heap} {v : Val}, Good D p ty →
    Typed D t ty → Shows h t v → ∃ h' v', run p h v = some (h', v') ∧ New h h' t v'
  | .same, ty, t, h, v, g, ht, s => by
    have f : foot h t v = [] := flat_foot ht g
    exact ⟨h, v, by simp only [run], ⟨[], by simp⟩, s, by simp [f], by simp [f]⟩
  | .str, ty, t, h, v, g, ht, s => by
    cases g
    cases t <;> simp only [Typed, reduceCtorEq, exists_false, false_and] at ht
    rename_i bs
    obtain ⟨h', v', e, -, n⟩ := strNew_new (h := h) (bs := bs) (v := v) s
    exact ⟨h', v', by simpa only [run] using e, n⟩
  | .arr, ty, t, h, v, g, ht, s => by
    obtain ⟨et, k, rfl, hf⟩ := g
    cases t <;> simp only [Typed, reduceCtorEq, exists_false, false_and] at ht
    rename_i ts
    obtain ⟨_, _, he, ht⟩ := ht
    cases he
    obtain ⟨a, vs, rfl, h1, h2, h3⟩ := s
    have f : footL h ts (vs.take ts.length) = [] := flat_footL ht hf
    exact ⟨_, _, by simp only [run, h1], new_arr ⟨⟨[], by simp⟩, h3, by simp [f], by simp [f]⟩⟩
  | .arrEach p, ty, t, h, v, g, ht, s => by
    obtain ⟨et, k, rfl, hg⟩ := g
    cases t <;> simp only [Typed, reduceCtorEq, exists_false, false_and] at ht
    rename_i ts
    obtain ⟨_, _, he, ht⟩ := ht
    cases he
    obtain ⟨a, vs, rfl, h1, h2, h3⟩ := s
    obtain ⟨h', vs', e, n⟩ := eachVal_new (fun a b => run_good p hg a b) ht h3
    exact ⟨_, _, by simp only [run, h1, e], new_arr n⟩
  | .map, ty, t, h, v, g, ht, s => by
    obtain ⟨k, et, rfl, hf⟩ := g
    cases t <;> simp only [Typed, reduceCtorEq, exists_false, false_and] at ht
    rename_i ks ts
    obtain ⟨_, _, he, hl, nd, hk, ht⟩ := ht
    cases he
    obtain ⟨a, kvs, vs, rfl, h1, h2, h3⟩ := s
    obtain ⟨h', kvs', e, n⟩ := copyKeys_new h2
    have s3 : ShowsL h' ts vs := by
      obtain ⟨⟨kk, rfl⟩, -⟩ := n
      exact (frameL (fun x hx => get_append (footL_lt h3 x hx)) h3).1
    have f : footL h' ts vs = [] := flat_footL ht hf
    exact ⟨_, _, by simp only [run, h1, e],
      new_map (newE_of n ⟨⟨[], by simp⟩, s3, by simp [f], by simp [f]⟩)⟩
  | .mapEach b p, ty, t, h, v, g, ht, s => by
    obtain ⟨k, et, rfl, rfl, hg⟩ := g
    cases t <;> simp only [Typed, reduceCtorEq, exists_false, false_and] at ht
    rename_i ks ts
    obtain ⟨_, _, he, hl, nd, hk, ht⟩ := ht
    cases he
    obtain ⟨a, kvs, vs, rfl, h1, h2, h3⟩ := s
    obtain ⟨h', kvs', vs', e, n⟩ := eachEntry_new (h0 := h) (kd := []) (td := []) (kvs2 := []) (vs2 := [])
      (fun a b => run_good p hg a b) hl hk (by simpa using nd) ht h2 h3
      ⟨⟨[], by simp⟩, rfl, rfl, by simp [footK, footL], by simp [footK, footL]⟩
    exact ⟨h' ++ [.table kvs' vs'], .map h'.length, by simp only [run, h1, e], new_map (by simpa using n)⟩
  | .rcd ps, ty, t, h, v, g, ht, s => by
    obtain ⟨n, fs, rfl, hd, hg⟩ := g
    cases t <;> simp only [Typed, reduceCtorEq, exists_false, false_and] at ht
    rename_i ts
    obtain ⟨_, _, he, hd', ht⟩ := ht
    cases he
    rw [hd] at hd'
    cases hd'
    obtain ⟨vs, rfl, h3⟩ := s
    obtain ⟨h', vs', e, n⟩ := runFields_good ps hg ht h3
    exact ⟨h', .rcd vs', by simp only [run, e], new_rcd n⟩
theorem runFields_good {D : Decls} : ∀ (ps : List Plan) {fs : List Ty} {ts : List Tree} {h : Heap}
    {vs : List Val}, GoodL D ps fs → TypedF D ts fs → ShowsL h ts vs →
    ∃ h' vs', runFields ps h vs = some (h', vs') ∧ NewL h h' ts vs'
  | [], _, ts, h, vs, g, ht, s => by
    cases g
    cases ts with
    | nil => cases s; exact ⟨h, [], by simp only [runFields], newL_nil h⟩
    | cons t ts => obtain ⟨_, _, he, _⟩ := ht; simp at he
  | p :: ps, _, ts, h, vs, g, ht, s => by
    obtain ⟨g1, gs, rfl, hg, hgs⟩ := g
    cases ts with
    | nil => simp [TypedF] at ht
    | cons t ts =>
      obtain ⟨_, _, he, ht1, ht2⟩ := ht
      simp only [List.cons.injEq] at he
      obtain ⟨rfl, rfl⟩ := he
      obtain ⟨w, ws, rfl, s1, s2⟩ := s
      obtain ⟨h1, w1, e1, n1⟩ := run_good p hg ht1 s1
      have s3 : ShowsL h1 ts ws := by
        obtain ⟨⟨kk, rfl⟩, -⟩ := n1
        exact (frameL (fun x hx => get_append (footL_lt s2 x hx)) s2).1
      obtain ⟨h', vs', e, nk⟩ := runFields_good ps hgs ht2 s3
      exact ⟨h', w1 :: vs', by simp only [runFields, e1, e], newL_cons n1 nk⟩
end


/-! ## The emitted plans are good -/

theorem name_ne_nil {D : Decls} : ∀ {ty : Ty}, Legal D ty → ty.name ≠ []
  | .base n, h => h.1.1
  | .str, _ => by simp [Ty.name]
  | .ptr t, _ => by simp [Ty.name]
  | .arr t none, _ => by simp [Ty.name]
  | .arr t (some k), _ => by simp [Ty.name]
  | .map k v, _ => by simp [Ty.name]
  | .struct n, h => h.1.1

theorem word_head {n : Name} (w : Word n) {c : Char} (hc : c ∈ "[],:^".toList) : n.head? ≠ some c := by
  intro e
  exact w.2.1 c (List.mem_of_mem_head? e) hc

theorem word_isMap {n : Name} (w : Word n) : isMap n = false := by
  by_contra h
  simp only [Bool.not_eq_false] at h
  have hp : "map[".toList <+: n := List.isPrefixOf_iff_prefix.1 h
  exact w.2.1 '[' (hp.subset (by decide)) (by decide)

theorem find_env (D : Decls) (n : Name) :
    find D.env n = (D.fields n).map (fun fs => ⟨n, fs.map Ty.name⟩) := by
  unfold find Decls.env Decls.fields
  induction D with
  | nil => rfl
  | cons d D ih =>
    simp only [List.map_cons, List.find?_cons]
    by_cases e : d.1 = n
    · simp [e]
    · simp [e, ih]

theorem needsF_word {D : Decls} {fuel : Nat} {vis : List Name} {n : Name} (w : Word n) :
    needsF (fuel + 1) D.env vis n = match find D.env n with
      | none => some false
      | some d =>
        if n ∈ vis then some false
        else if guardDepth ≤ vis.length then none
        else needsAny (needsF fuel D.env (n :: vis)) d.fields := by
  rw [needsF, if_neg w.1, if_neg (word_head w (by decide)), if_neg (by rw [word_isMap w]; decide),
    if_neg w.2.2, if_neg (word_head w (by decide))]
  rfl

def Boxed : Ty → Bool
  | .arr _ _ => true
  | .map _ _ => true
  | .str => true
  | _ => false

theorem isMap_map (s : Name) : isMap ("map[".toList ++ s) = true :=
  List.isPrefixOf_iff_prefix.2 (List.prefix_append _ _)

theorem needsF_boxed {fuel : Nat} {env : Env} {vis : List Name} {ty : Ty} (b : Boxed ty = true) :
    needsF (fuel + 1) env vis ty.name = some true := by
  cases ty <;> simp only [Boxed, Bool.false_eq_true] at b
  · simp only [Ty.name]
    rw [needsF, if_neg (by decide), if_neg (by decide), if_neg (by decide), if_pos rfl]
  · rename_i t k
    cases k <;> simp [Ty.name, needsF]
  · rename_i k v
    simp only [Ty.name]
    rw [needsF, if_neg (by simp), if_neg (by simp), if_pos (isMap_map _)]

mutual
theorem needsF_spec {D : Decls} {rank : Name → Nat} (lay : Layered D rank)
    (ok : ∀ n fs, D.fields n = some fs → ∀ f ∈ fs, Legal D f) :
    ∀ (r : Nat) {ty : Ty} {fuel : Nat} {vis : List Name}, Legal D ty → (∀ m ∈ structsOf ty, rank m < r) →
      r < fuel → (∀ m ∈ vis, r ≤ rank m) → vis.length + r ≤ 64 →
      ∃ b, needsF fuel D.env vis ty.name = some b ∧ (b = false → Flat D ty)
  | r, ty, 0, vis, _, _, hf, _, _ => by omega
  | r, ty, fuel + 1, vis, leg, hr, hf, hv, hl => by
    by_cases bx : Boxed ty = true
    · exact ⟨true, needsF_boxed bx, by simp⟩
    · cases ty <;> simp only [Boxed, not_true_eq_false] at bx
      · rename_i n
        refine ⟨false, ?_, fun _ => Flat.base n⟩
        simp only [Ty.name]
        rw [needsF_word leg.1, find_env, leg.2]
        rfl
      · rename_i t
        refine ⟨false, ?_, fun _ => Flat.ptr t⟩
        simp only [Ty.name]
        rw [needsF, if_neg (by simp), if_neg (by simp), if_neg (by simp [isMap]), if_neg (by simp),
          if_pos (by simp)]
      · rename_i n
        simp only [Ty.name]
        rw [needsF_word leg.1, find_env]
        cases hd : D.fields n with
        | none => exact (leg.2 hd).elim
        | some fs =>
          have hn : rank n < r := hr n (by simp [structsOf])
          have nv : n ∉ vis := fun hm => by have := hv n hm; omega
          simp only [Option.map_some]
          rw [if_neg nv, if_neg (by unfold guardDepth; omega)]
          obtain ⟨b, e, hb⟩ := needsAny_spec lay ok (rank n) (fs := fs) (fuel := fuel) (vis := n :: vis)
            (fun f hf' => ok n fs hd f hf') (fun f hf' => (lay n fs hd).2 f hf') (by omega)
            (by
              intro m hm
              rcases List.mem_cons.1 hm with rfl | hm
              · exact Nat.le_refl _
              · have := hv m hm; omega)
            (by simp only [List.length_cons]; omega)
          exact ⟨b, e, fun e2 => Flat.struct n fs hd (hb e2)⟩
termination_by r => (r, 0)
theorem needsAny_spec {D : Decls} {rank : Name → Nat} (lay : Layered D rank)
    (ok : ∀ n fs, D.fields n = some fs → ∀ f ∈ fs, Legal D f) :
    ∀ (r : Nat) {fs : List Ty} {fuel : Nat} {vis : List Name}, (∀ f ∈ fs, Legal D f) →
      (∀ f ∈ fs, ∀ m ∈ structsOf f, rank m < r) →
      r < fuel → (∀ m ∈ vis, r ≤ rank m) → vis.length + r ≤ 64 →
      ∃ b, needsAny (needsF fuel D.env vis) (fs.map Ty.name) = some b ∧ (b = false → ∀ f ∈ fs, Flat D f)
  | r, [], fuel, vis, _, _, _, _, _ => ⟨false, by simp [needsAny], by simp⟩
  | r, f :: fs, fuel, vis, leg, hr, hf, hv, hl => by
    obtain ⟨b, e, hb⟩ := needsF_spec lay ok r (leg f (by simp)) (hr f (by simp)) hf hv hl
    obtain ⟨c, e2, hc⟩ := needsAny_spec lay ok r (fs := fs) (fun g hg => leg g (by simp [hg]))
      (fun g hg => hr g (by simp [hg])) hf hv hl
    simp only [List.map_cons, needsAny, e, e2]
    cases b with
    | true => exact ⟨true, rfl, by simp⟩
    | false =>
      refine ⟨c, rfl, fun h0 g hg => ?_⟩
      rcases List.mem_cons.1 hg with rfl | hg
      · exact hb rfl
      · exact hc h0 g hg
termination_by r fs => (r, fs.length + 1)
end

theorem needs_spec {D : Decls} {rank : Name → Nat} (lay : Layered D rank)
    (ok : ∀ n fs, D.fields n = some fs → ∀ f ∈ fs, Legal D f) {ty : Ty} (leg : Legal D ty)
    (hr : ∀ m ∈ structsOf ty, rank m < 64) :
    ∃ b, needs D.env ty.name = some b ∧ (b = false → Flat D ty) :=
  needsF_spec lay ok 64 leg hr (by omega) (by simp) (by simp)

theorem takeWhile_all {p : Char → Bool} {l r : List Char} (h : ∀ c ∈ l, p c = true) :
    (l ++ r).takeWhile p = l ++ r.takeWhile p := by
  rw [List.takeWhile_append_of_pos h]

theorem mem_ne {l : List Char} {d : Char} (h : d ∉ l) : ∀ c ∈ l, (decide (c ≠ d)) = true := by
  intro c hc
  simp only [ne_eq, decide_not, Bool.not_eq_eq_eq_not, Bool.not_true, decide_eq_false_iff_not]
  rintro rfl
  exact h hc

theorem elem_cut {t : Ty} {k : Option Name} (hc : ',' ∉ t.name)
    (hl : (Ty.arr t k).name.length ≤ 255) : elemName (Ty.arr t k).name = t.name := by
  unfold elemName
  cases k with
  | none =>
    simp only [Ty.name, List.length_cons, List.length_append, List.length_nil] at hl ⊢
    rw [Nat.min_eq_left (by omega)]
    simp only [List.drop_succ_cons, List.drop_zero]
    rw [List.take_append_of_le_length (by omega), List.take_of_length_le (by omega)]
    have := takeWhile_all (r := []) (mem_ne hc)
    simpa using this
  | some k =>
    simp only [Ty.name, List.length_cons, List.length_append, List.length_nil] at hl ⊢
    rw [Nat.min_eq_left (by omega)]
    simp only [List.drop_succ_cons, List.drop_zero]
    have e : t.name ++ ',' :: (k ++ [']']) = (t.name ++ ',' :: k) ++ [']'] := by simp
    rw [e, List.take_append_of_le_length (by simp), List.take_of_length_le (by simp),
      takeWhile_all (mem_ne hc)]
    simp

theorem arr_shape (t : Ty) (k : Option Name) (h : t.name ≠ []) :
    (Ty.arr t k).name.head? = some '[' ∧ ¬ ((Ty.arr t k).name.length < 3) ∧
      (Ty.arr t k).name.getLast? = some ']' := by
  have : 0 < t.name.length := List.length_pos_of_ne_nil h
  cases k with
  | none =>
    refine ⟨rfl, by simp [Ty.name]; omega, ?_⟩
    simp only [Ty.name]
    rw [← List.cons_append, List.getLast?_append]
    rfl
  | some k =>
    refine ⟨rfl, by simp [Ty.name]; omega, ?_⟩
    have e : (Ty.arr t (some k)).name = ('[' :: (t.name ++ ',' :: k)) ++ [']'] := by simp [Ty.name]
    rw [e, List.getLast?_append]
    rfl

theorem keyTy_no_colon {k : Option Name} (hk : ∀ n, k = some n → Word n) : ':' ∉ keyTyName k := by
  cases k with
  | none => decide
  | some n => intro hm; exact (hk n rfl).2.1 ':' hm (by decide)

theorem keyTy_ne_nil {k : Option Name} (hk : ∀ n, k = some n → Word n) : keyTyName k ≠ [] := by
  cases k with
  | none => decide
  | some n => exact (hk n rfl).1

theorem map_len (k : Option Name) (v : Ty) :
    (Ty.map k v).name.length = (keyTyName k).length + v.name.length + 6 := by
  simp [Ty.name]; omega

theorem map_drop (k : Option Name) (v : Ty) :
    (Ty.map k v).name.drop 4 = keyTyName k ++ ':' :: (v.name ++ [']']) := by
  simp [Ty.name]

theorem key_cut {k : Option Name} {v : Ty} (hk : ∀ n, k = some n → Word n)
    (hl : (keyTyName k).length ≤ 127) : keyName (Ty.map k v).name = keyTyName k := by
  unfold keyName
  rw [map_drop, takeWhile_all (mem_ne (keyTy_no_colon hk))]
  simp only [ne_eq, not_true_eq_false, decide_false, Bool.false_eq_true, not_false_eq_true,
    List.takeWhile_cons_of_neg, List.append_nil]
  exact List.take_of_length_le hl

theorem val_cut {k : Option Name} {v : Ty} (hk : ∀ n, k = some n → Word n)
    (hl : (keyTyName k).length ≤ 127) (hs : (Ty.map k v).name.length ≤ 255) :
    valName (Ty.map k v).name = v.name := by
  unfold valName
  rw [key_cut hk hl, map_len, map_drop]
  rw [map_len] at hs
  rw [List.dropWhile_append_of_pos (mem_ne (keyTy_no_colon hk))]
  rw [List.dropWhile_cons_of_neg (by simp), Nat.min_eq_left (by omega)]
  simp only [List.drop_succ_cons, List.drop_zero]
  rw [List.take_append_of_le_length (by omega), List.take_of_length_le (by omega)]

theorem map_shape {k : Option Name} {v : Ty} (hk : ∀ n, k = some n → Word n) (h : v.name ≠ []) :
    (Ty.map k v).name.head? ≠ some '[' ∧ ¬ ((Ty.map k v).name.length < 7) ∧
      (Ty.map k v).name.getLast? = some ']' ∧ ':' ∈ (Ty.map k v).name.drop 4 ∧
      (Ty.map k v).name ≠ "string".toList := by
  have h1 : 0 < v.name.length := List.length_pos_of_ne_nil h
  have h2 : 0 < (keyTyName k).length := List.length_pos_of_ne_nil (keyTy_ne_nil hk)
  have e : (Ty.map k v).name = ("map[".toList ++ (keyTyName k ++ ':' :: v.name)) ++ [']'] := by simp [Ty.name]
  refine ⟨by simp [Ty.name], by rw [map_len]; omega, ?_, ?_, by simp [Ty.name]⟩
  · rw [e, List.getLast?_append]; rfl
  · rw [map_drop]; simp

theorem arr_ne_string (t : Ty) (k : Option Name) : (Ty.arr t k).name ≠ "string".toList := by
  cases k <;> simp [Ty.name]

theorem planStep_good {D : Decls} {rank : Name → Nat} (lay : Layered D rank)
    (ok : ∀ n fs, D.fields n = some fs → ∀ f ∈ fs, Legal D f) {onS : Name → Option Plan} :
    ∀ (ty : Ty) {fuel : Nat}, Copyable D ty → (∀ m ∈ structsOf ty, rank m < 64) →
      (∀ m ∈ structsOf ty, ∃ p, onS m = some p ∧ Good D p (.struct m)) → ty.name.length < fuel →
      ∃ p, planStep D.env onS fuel ty.name = some p ∧ Good D p ty := by
  intro ty
  induction ty with
  | base n =>
    intro fuel cp hr hs hf
    obtain ⟨f, rfl⟩ : ∃ f, fuel = f + 1 := ⟨fuel - 1, by omega⟩
    have : needs D.env n = some false := by
      unfold needs
      rw [needsF_word cp.legal.1, find_env, cp.legal.2]
      rfl
    exact ⟨.same, by simp only [planStep, Ty.name, this], Flat.base n⟩
  | str =>
    intro fuel cp hr hs hf
    obtain ⟨f, rfl⟩ : ∃ f, fuel = f + 1 := ⟨fuel - 1, by omega⟩
    have : needs D.env Ty.str.name = some true := needsF_boxed rfl
    refine ⟨.str, ?_, rfl⟩
    simp only [planStep, this]
    exact if_pos rfl
  | ptr t ih =>
    intro fuel cp hr hs hf
    obtain ⟨f, rfl⟩ : ∃ f, fuel = f + 1 := ⟨fuel - 1, by omega⟩
    have : needs D.env (Ty.ptr t).name = some false := by
      unfold needs
      simp only [Ty.name]
      rw [needsF, if_neg (by simp), if_neg (by simp), if_neg (by simp [isMap]), if_neg (by simp),
          if_pos (by simp)]
    exact ⟨.same, by simp only [planStep, this], Flat.ptr t⟩
  | arr t k ih =>
    intro fuel cp hr hs hf
    obtain ⟨f, rfl⟩ : ∃ f, fuel = f + 1 := ⟨fuel - 1, by omega⟩
    have legt : Legal D t := cp.legal
    have : needs D.env (Ty.arr t k).name = some true := needsF_boxed rfl
    obtain ⟨a1, a2, a3⟩ := arr_shape t k (name_ne_nil legt)
    have cut := elem_cut cp.cut.1 cp.short
    have hlen : t.name.length < (Ty.arr t k).name.length := by
      cases k <;> simp [Ty.name] <;> omega
    have cpt : Copyable D t := ⟨legt, cp.cut.2, by have := cp.short; omega⟩
    obtain ⟨b, e, hb⟩ := needs_spec lay ok legt hr
    simp only [planStep, this]
    rw [if_neg (arr_ne_string t k), if_pos a1, if_neg (by rintro (h | h); exact a2 h; exact h a3), cut, e]
    cases b with
    | false => exact ⟨.arr, rfl, t, k, rfl, hb rfl⟩
    | true =>
      obtain ⟨p, e2, g⟩ := ih cpt hr hs (fuel := f) (by omega)
      exact ⟨.arrEach p, by simp only [e2, Option.map_some], t, k, rfl, g⟩
  | map k v ih =>
    intro fuel cp hr hs hf
    obtain ⟨f, rfl⟩ : ∃ f, fuel = f + 1 := ⟨fuel - 1, by omega⟩
    have legv : Legal D v := cp.legal.2
    have : needs D.env (Ty.map k v).name = some true := needsF_boxed rfl
    obtain ⟨a1, a2, a3, a4, a5⟩ := map_shape cp.legal.1 (name_ne_nil legv)
    have cut := val_cut cp.legal.1 cp.cut.1 cp.short
    have kcut := key_cut (v := v) cp.legal.1 cp.cut.1
    have hlen := map_len k v
    have cpt : Copyable D v := ⟨legv, cp.cut.2, by have := cp.short; omega⟩
    obtain ⟨b, e, hb⟩ := needs_spec lay ok legv hr
    simp only [planStep, this]
    have im : isMap (Ty.map k v).name = true := isMap_map _
    rw [if_neg a5, if_neg a1, if_pos im,
      if_neg (by rintro (h | h | h); exact a2 h; exact h a3; exact h a4), cut, e, kcut]
    cases b with
    | false => exact ⟨.map, rfl, k, v, rfl, hb rfl⟩
    | true =>
      obtain ⟨p, e2, g⟩ := ih cpt hr hs (fuel := f) (by omega)
      refine ⟨.mapEach (decide (keyTyName k = "string".toList)) p, by simp only [e2, Option.map_some], k, v, rfl, ?_, g⟩
      cases k with
      | none => simp [keyTyName]
      | some n => exact decide_eq_false (cp.legal.1 n rfl).2.2
  | struct n =>
    intro fuel cp hr hs hf
    obtain ⟨f, rfl⟩ : ∃ f, fuel = f + 1 := ⟨fuel - 1, by omega⟩
    obtain ⟨b, e, hb⟩ := needs_spec lay ok cp.legal hr
    have w := cp.legal.1
    simp only [Ty.name] at e ⊢
    simp only [planStep, e]
    cases b with
    | false => exact ⟨.same, rfl, hb rfl⟩
    | true =>
      simp only
      rw [if_neg w.2.2, if_neg (word_head w (by decide)), if_neg (by rw [word_isMap w]; decide)]
      exact hs n (by simp [structsOf])

theorem fieldPlans_good {D : Decls} {rank : Name → Nat} (lay : Layered D rank)
    (ok : ∀ n fs, D.fields n = some fs → ∀ f ∈ fs, Legal D f) {onV : Name → Option Plan} :
    ∀ {fs : List Ty}, (∀ f ∈ fs, Legal D f) → (∀ f ∈ fs, ∀ m ∈ structsOf f, rank m < 64) →
      (∀ f ∈ fs, ∃ p, onV f.name = some p ∧ Good D p f) →
      ∃ ps, fieldPlans D.env onV (fs.map Ty.name) = some ps ∧ GoodL D ps fs
  | [], _, _, _ => ⟨[], rfl, rfl⟩
  | f :: fs, leg, hr, hp => by
    obtain ⟨ps, e, g⟩ := fieldPlans_good lay ok (fs := fs) (fun g hg => leg g (by simp [hg]))
      (fun g hg => hr g (by simp [hg])) (fun g hg => hp g (by simp [hg]))
    obtain ⟨b, e2, hb⟩ := needs_spec lay ok (leg f (by simp)) (hr f (by simp))
    obtain ⟨p, e3, gp⟩ := hp f (by simp)
    simp only [List.map_cons, fieldPlans, e2, e, e3]
    cases b with
    | false => exact ⟨_, rfl, f, fs, rfl, hb rfl, g⟩
    | true => exact ⟨_, rfl, f, fs, rfl, gp, g⟩

theorem planF_good {D : Decls} {rank : Name → Nat} (lay : Layered D rank)
    (ok : ∀ n fs, D.fields n = some fs → ∀ f ∈ fs, Copyable D f) :
    ∀ (r : Nat) {ty : Ty} {depth : Nat} {vis : List Name}, Copyable D ty → (∀ m ∈ structsOf ty, rank m < r) →
      r < depth → (∀ m ∈ vis, r ≤ rank m) → vis.length + r ≤ 64 →
      ∃ p, planF depth D.env vis ty.name = some p ∧ Good D p ty := by
  intro r
  induction r using Nat.strongRecOn with
  | ind r ih =>
    intro ty depth vis cp hr hd hv hl
    obtain ⟨depth, rfl⟩ : ∃ d, depth = d + 1 := ⟨depth - 1, by omega⟩
    have legs : ∀ n fs, D.fields n = some fs → ∀ f ∈ fs, Legal D f :=
      fun n fs e f hf => (ok n fs e f hf).legal
    rw [planF]
    refine planStep_good lay legs ty cp (fun m hm => by have := hr m hm; omega) ?_ (by omega)
    intro m hm
    have hmr := hr m hm
    have md : D.fields m ≠ none := by
      have leg := cp.legal
      clear cp hr
      induction ty with
      | base n => simp [structsOf] at hm
      | str => simp [structsOf] at hm
      | ptr t _ => simp [structsOf] at hm
      | arr t k iht => exact iht hm leg
      | map k v ihv => exact ihv hm leg.2
      | struct n =>
        simp only [structsOf, List.mem_singleton] at hm
        subst hm
        exact leg.2
    obtain ⟨fs, hfs⟩ := Option.ne_none_iff_exists'.1 md
    rw [find_env, hfs]
    simp only [Option.map_some]
    rw [if_neg (fun hx => by have := hv m hx; omega), if_neg (by unfold guardDepth; omega)]
    obtain ⟨h64, hsub⟩ := lay m fs hfs
    obtain ⟨ps, e, g⟩ := fieldPlans_good lay legs (fs := fs) (onV := planF depth D.env (m :: vis))
      (fun f hf => legs m fs hfs f hf)
      (fun f hf x hx => by have := hsub f hf x hx; omega)
      (fun f hf => ih (rank m) hmr (ok m fs hfs f hf) (hsub f hf) (by omega)
        (by
          intro x hx
          rcases List.mem_cons.1 hx with rfl | hx
          · exact Nat.le_refl _
          · have := hv x hx; omega)
        (by simp only [List.length_cons]; omega))
    exact ⟨.rcd ps, by simp only [e, Option.map_some], m, fs, rfl, hfs, g⟩

theorem good_size {D : Decls} {t : Ty} {k k' : Option Name} {p : Plan} (g : Good D p (.arr t k)) :
    Good D p (.arr t k') := by
  cases p with
  | same => cases g
  | str => cases g
  | arr => obtain ⟨_, _, e, h⟩ := g; cases e; exact ⟨_, _, rfl, h⟩
  | arrEach p => obtain ⟨_, _, e, h⟩ := g; cases e; exact ⟨_, _, rfl, h⟩
  | map => obtain ⟨_, _, e, h⟩ := g; cases e
  | mapEach b p => obtain ⟨_, _, e, h⟩ := g; cases e
  | rcd ps => obtain ⟨_, _, e, h⟩ := g; cases e

theorem copyName_other {s : Name} (h : s.head? ≠ some '[') (hl : s.length ≤ 255) : copyName s = s := by
  unfold copyName
  rw [if_neg (fun x => h x.1), List.take_of_length_le hl]

theorem copyName_arr {D : Decls} {t : Ty} {k : Option Name} (cp : Copyable D (.arr t k)) :
    copyName (Ty.arr t k).name = (Ty.arr t none).name := by
  have legt : Legal D t := cp.legal
  obtain ⟨a1, a2, a3⟩ := arr_shape t k (name_ne_nil legt)
  have cut := elem_cut cp.cut.1 cp.short
  have hs := cp.short
  unfold elemName at cut
  rw [Nat.min_eq_left (by omega)] at cut
  unfold copyName
  rw [if_pos ⟨a1, by omega, a3⟩, cut]
  have hlen : (Ty.arr t none).name.length ≤ (Ty.arr t k).name.length := by
    cases k <;> simp [Ty.name]
  rw [List.take_of_length_le (by simp only [Ty.name] at hlen; simp at hlen ⊢; omega)]
  simp [Ty.name]

theorem copyPlan_good {D : Decls} {rank : Name → Nat} (lay : Layered D rank)
    (ok : ∀ n fs, D.fields n = some fs → ∀ f ∈ fs, Copyable D f) {ty : Ty} (cp : Copyable D ty) :
    ∃ p, copyPlan D.env ty.name = some p ∧ Good D p ty := by
  have all : ∀ {ty : Ty}, Copyable D ty → ∀ m ∈ structsOf ty, rank m < 64 := by
    intro ty cp m hm
    have leg := cp.legal
    clear cp
    induction ty with
    | base n => simp [structsOf] at hm
    | str => simp [structsOf] at hm
    | ptr t _ => simp [structsOf] at hm
    | arr t k iht => exact iht hm leg
    | map k v ihv => exact ihv hm leg.2
    | struct n =>
      simp only [structsOf, List.mem_singleton] at hm
      subst hm
      obtain ⟨fs, hfs⟩ := Option.ne_none_iff_exists'.1 leg.2
      exact (lay _ fs hfs).1
  have main : ∀ {ty : Ty}, Copyable D ty → ∃ p, plan D.env ty.name = some p ∧ Good D p ty :=
    fun cp => planF_good lay ok 64 cp (all cp) (by omega) (by simp) (by simp)
  unfold copyPlan
  by_cases h : ty.name.head? = some '['
  · have : ∃ t k, ty = .arr t k := by
      cases ty with
      | base n => exact (word_head cp.legal.1 (by decide) h).elim
      | str => simp [Ty.name] at h
      | ptr t => simp [Ty.name] at h
      | arr t k => exact ⟨t, k, rfl⟩
      | map k v => simp [Ty.name] at h
      | struct n => exact (word_head cp.legal.1 (by decide) h).elim
    obtain ⟨t, k, rfl⟩ := this
    rw [copyName_arr cp]
    have cp' : Copyable D (.arr t none) := ⟨cp.legal, cp.cut, by
      have := cp.short
      have hlen : (Ty.arr t none).name.length ≤ (Ty.arr t k).name.length := by
        cases k <;> simp [Ty.name]
      omega⟩
    obtain ⟨p, e, g⟩ := main cp'
    exact ⟨p, e, good_size g⟩
  · rw [copyName_other h cp.short]
    exact main cp

/-- The built-in `copy` on a value of a type with the given name. -/
def copyOf (D : Decls) (ty : Ty) (h : Heap) (v : Val) : Option (Heap × Val) :=
  (copyPlan D.env ty.name).bind (fun p => run p h v)

/-- The copy exists, has the same contents, and original and copy are independent of each other. -/
def CopiedWell (D : Decls) (ty : Ty) (h : Heap) (t : Tree) (v : Val) : Prop :=
  ∃ h' w, copyOf D ty h v = some (h', w) ∧ Shows h' t v ∧ Shows h' t w ∧ Independent h' t v w

end Cp

open Cp

/-- The full property: `copy` of a value of any type of any program. -/
def C22_statement : Prop :=
  ∀ (D : Decls) (ty : Ty) (h : Heap) (t : Tree) (v : Val),
    (∀ n fs, D.fields n = some fs → ∀ f ∈ fs, Legal D f) → Legal D ty → Typed D t ty → Holds h t v →
    CopiedWell D ty h t v

/-- For structs that do not contain themselves and are nested at most 64 deep, and for types whose arrays
contain no sized arrays and whose names fit the compiler's buffers, `copy` returns a value with the same
contents, and after any sequence of operations on the two values, in any order, at any depth inside them,
each has exactly the contents which the operations on it alone give. What is missing: types of structs which
contain themselves through an array or map, sized arrays inside arrays, more than 64 nested structs, longer
type names. -/
theorem C22_partial (D : Decls) (rank : Name → Nat) (lay : Layered D rank)
    (ok : ∀ n fs, D.fields n = some fs → ∀ f ∈ fs, Copyable D f) (ty : Ty) (cp : Copyable D ty)
    (h : Heap) (t : Tree) (v : Val) (ht : Typed D t ty) (hv : Holds h t v) : CopiedWell D ty h t v := by
  obtain ⟨p, e, g⟩ := copyPlan_good lay ok cp
  obtain ⟨h', w, e2, ⟨k, rfl⟩, n2, n3, n4⟩ := run_good p g ht hv.1
  obtain ⟨f1, f2⟩ := frame (h' := h ++ k) (fun x hx => get_append (foot_lt hv.1 x hx)) hv.1
  refine ⟨h ++ k, w, by simp only [copyOf, e, Option.bind_some, e2], f1, n2, ?_⟩
  intro ops tv tw e3 e4
  refine independent_of_apart ops f1 n2 (by rw [f2]; exact hv.2) n3 ?_ e3 e4
  intro x hx hy
  rw [f2] at hx
  have := foot_lt hv.1 x hx
  have := n4 x hy
  omega

namespace Cp

/-- `const TreeNode struct { value int, children [TreeNode] }`, as in
integration-tests/pass/core/circular_struct_multireturn.gray. -/
def treeDecls : Decls := [("TreeNode".toList, [.base "int".toList, .arr (.struct "TreeNode".toList) none])]

def treeHeap : Heap :=
  [.vals [.num 0, .num 0, .num 0, .num 0], .vals [.rcd [.num 2, .arr 0 0]], .vals [.rcd [.num 1, .arr 1 1]]]

def treeVal : Val := .rcd [.num 0, .arr 2 1]

def node (n : Int) (ts : List Tree) : Tree := .rcd [.num n, .arr ts]

/-- The effect of `b.children[0].children[0].value = 9`. -/
def treeOp : Op := ⟨[.field 1, .idx 0, .field 1, .idx 0, .field 0], .set (.num 9)⟩

end Cp

namespace Cp

def treeHeap1 : Heap := treeHeap ++ [.vals [.rcd [.num 1, .arr 1 1]]]

def treeCopy : Val := .rcd [.num 0, .arr 3 1]

def treeHeap2 : Heap :=
  [.vals [.num 0, .num 0, .num 0, .num 0], .vals [.rcd [.num 9, .arr 0 0]], .vals [.rcd [.num 1, .arr 1 1]],
    .vals [.rcd [.num 1, .arr 1 1]]]

theorem tree_copy : copyOf treeDecls (.struct "TreeNode".toList) treeHeap treeVal = some (treeHeap1, treeCopy) :=
  rfl

theorem tree_exec : exec [(false, treeOp)] treeHeap1 treeVal treeCopy = some (treeHeap2, treeVal, treeCopy) :=
  rfl

end Cp

/-- After `b = copy(a)` for a tree three levels high, assigning to the lowest node of `b` changes `a`. -/
theorem C22_witness :
    copyOf treeDecls (.struct "TreeNode".toList) treeHeap treeVal = some (treeHeap1, treeCopy) ∧
    exec [(false, treeOp)] treeHeap1 treeVal treeCopy = some (treeHeap2, treeVal, treeCopy) ∧
    Shows treeHeap1 (node 0 [node 1 [node 2 []]]) treeVal ∧
    Shows treeHeap1 (node 0 [node 1 [node 2 []]]) treeCopy ∧
    Shows treeHeap2 (node 0 [node 1 [node 9 []]]) treeVal := by
  refine ⟨tree_copy, tree_exec, ?_, ?_, ?_⟩ <;>
    simp [Shows, ShowsL, node, treeVal, treeCopy, treeHeap, treeHeap1, treeHeap2]

theorem node_typed {n : Int} {ts : List Tree} (h : TypedAll treeDecls ts (.struct "TreeNode".toList)) :
    Typed treeDecls (node n ts) (.struct "TreeNode".toList) :=
  ⟨_, _, rfl, rfl, _, _, rfl, ⟨_, rfl⟩, _, _, rfl, ⟨_, _, rfl, h⟩, rfl⟩

theorem C22_fails : ¬ C22_statement := by
  intro st
  have legal : Legal treeDecls (.struct "TreeNode".toList) := by
    refine ⟨⟨by decide, by decide, by decide⟩, ?_⟩
    simp [Decls.fields, treeDecls]
  obtain ⟨h', w, e, -, -, ind⟩ := st treeDecls (.struct "TreeNode".toList) treeHeap
    (node 0 [node 1 [node 2 []]]) treeVal
    (by
      intro n fs hf f hm
      have : fs = [.base "int".toList, .arr (.struct "TreeNode".toList) none] := by
        simp only [Decls.fields, treeDecls, List.find?_cons, List.find?_nil] at hf
        split at hf
        · simp only [Option.map_some, Option.some.injEq] at hf; exact hf.symm
        · simp at hf
      subst this
      simp only [List.mem_cons, List.not_mem_nil, or_false] at hm
      rcases hm with rfl | rfl
      · exact ⟨⟨by decide, by decide, by decide⟩, rfl⟩
      · exact legal)
    legal
    (node_typed ⟨node_typed ⟨node_typed trivial, trivial⟩, trivial⟩)
    (by
      refine ⟨by simp [Shows, ShowsL, node, treeVal, treeHeap], ?_⟩
      simp [foot, footL, node, treeVal, treeHeap])
  rw [tree_copy] at e
  simp only [Option.some.injEq, Prod.mk.injEq] at e
  obtain ⟨rfl, rfl⟩ := e
  obtain ⟨h1, v1, w1, e1, s1, -⟩ := ind [(false, treeOp)] _ _ rfl rfl
  rw [tree_exec] at e1
  simp only [Option.some.injEq, Prod.mk.injEq] at e1
  obtain ⟨rfl, rfl, rfl⟩ := e1
  simp [Shows, ShowsL, node, treeVal, treeHeap2] at s1

/-- For `[map[string:[int,3]]]` the element type is cut at the comma, and what is emitted copies the maps but
not the arrays in them: those stay shared. -/
theorem C22_sized_witness :
    copyPlan [] (Ty.arr (.map none (.arr (.base "int".toList) (some "3".toList))) none).name =
      some (.arrEach .map) := rfl

/-- Without the size the arrays in the maps are copied too. -/
example : copyPlan [] (Ty.arr (.map none (.arr (.base "int".toList) none)) none).name =
    some (.arrEach (.mapEach true .arr)) := rfl

namespace Cp

/-- `struct S1 { f S0 }`, `struct S2 { f S1 }`, …: a chain of nested structs. -/
def chain : Nat → Decls
  | 0 => [(['S'], [.str])]
  | n + 1 => ('S' :: List.replicate (n + 1) 'x', [.struct ('S' :: List.replicate n 'x')]) :: chain n

end Cp

/-- With 65 nested structs the guard against cycles is full: the counter gets out of step. -/
theorem C22_nesting_witness : copyPlan (chain 64).env ('S' :: List.replicate 64 'x') = none ∧
    copyPlan (chain 63).env ('S' :: List.replicate 63 'x') ≠ none := by
  decide +kernel

/-! A case which meets the hypotheses of `C22_partial`: a struct with a string, a map from strings to arrays,
and an array of structs. -/

namespace Cp

def sampleDecls : Decls :=
  [("P".toList, [.base "int".toList, .str]),
    ("Q".toList, [.map none (.arr (.base "int".toList) (some "3".toList)), .arr (.struct "P".toList) none])]

def sampleRank (n : Name) : Nat := if n = "Q".toList then 1 else 0

end Cp

theorem sample_layered : Layered sampleDecls sampleRank := by
  intro n fs hf
  simp only [Decls.fields, sampleDecls, List.find?_cons, List.find?_nil] at hf
  split at hf
  · rename_i e
    simp only [decide_eq_true_eq] at e
    subst e
    simp only [Option.map_some, Option.some.injEq] at hf
    subst hf
    exact ⟨by decide, by simp [structsOf]⟩
  · split at hf
    · rename_i e
      simp only [decide_eq_true_eq] at e
      subst e
      simp only [Option.map_some, Option.some.injEq] at hf
      subst hf
      exact ⟨by decide, by simp [structsOf, sampleRank]⟩
    · simp at hf

theorem sample_copyable : ∀ n fs, sampleDecls.fields n = some fs → ∀ f ∈ fs, Copyable sampleDecls f := by
  intro n fs hf f hm
  simp only [Decls.fields, sampleDecls, List.find?_cons, List.find?_nil] at hf
  split at hf
  · simp only [Option.map_some, Option.some.injEq] at hf
    subst hf
    simp only [List.mem_cons, List.not_mem_nil, or_false] at hm
    rcases hm with rfl | rfl
    · exact ⟨⟨⟨by decide, by decide, by decide⟩, rfl⟩, trivial, by decide⟩
    · exact ⟨trivial, trivial, by decide⟩
  · split at hf
    · simp only [Option.map_some, Option.some.injEq] at hf
      subst hf
      simp only [List.mem_cons, List.not_mem_nil, or_false] at hm
      rcases hm with rfl | rfl
      · refine ⟨⟨by simp, ⟨by decide, by decide, by decide⟩, rfl⟩, ⟨by decide, by decide, trivial⟩, by decide⟩
      · refine ⟨⟨⟨by decide, by decide, by decide⟩, ?_⟩, ⟨by decide, trivial⟩, by decide⟩
        simp [Decls.fields, sampleDecls]
    · simp at hf

example : ∃ (h : Heap) (v : Val) (t : Tree), Typed sampleDecls t (.struct "Q".toList) ∧ Holds h t v ∧
    t = .rcd [.map [.str [1], .str [2]] [.arr [.num 1, .num 2, .num 3], .arr [.num 4]],
      .arr [.rcd [.num 5, .str [7, 8]]]] ∧
    CopiedWell sampleDecls (.struct "Q".toList) h t v := by
  have ty : Typed sampleDecls (.rcd [.map [.str [1], .str [2]] [.arr [.num 1, .num 2, .num 3], .arr [.num 4]],
      .arr [.rcd [.num 5, .str [7, 8]]]]) (.struct "Q".toList) := by
    simp [Typed, TypedF, TypedAll, Decls.fields, sampleDecls, KeyTyped]
  have hold := make_new [] (.rcd [.map [.str [1], .str [2]] [.arr [.num 1, .num 2, .num 3], .arr [.num 4]],
      .arr [.rcd [.num 5, .str [7, 8]]]])
  refine ⟨_, _, _, ty, ⟨hold.2.1, hold.2.2.1⟩, rfl, ?_⟩
  refine C22_partial _ _ sample_layered sample_copyable _ ?_ _ _ _ ty ⟨hold.2.1, hold.2.2.1⟩
  refine ⟨⟨⟨by decide, by decide, by decide⟩, ?_⟩, trivial, by decide⟩
  simp [Decls.fields, sampleDecls]

/-- Two interleaved programs on original and copy. -/
example : side true [(true, ⟨[], .push (.num 3)⟩), (false, ⟨[.idx 0], .set (.num 8)⟩), (false, ⟨[], .pop⟩)]
      (.arr [.num 1, .num 2]) = some (.arr [.num 1, .num 2, .num 3]) ∧
    side false [(true, ⟨[], .push (.num 3)⟩), (false, ⟨[.idx 0], .set (.num 8)⟩), (false, ⟨[], .pop⟩)]
      (.arr [.num 1, .num 2]) = some (.arr [.num 8]) := ⟨rfl, rfl⟩

end Verif.Props
