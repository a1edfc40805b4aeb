import Verif.Model.Server
import Verif.Props.Interp
import Verif.Props.Path

/-! C43, C44, C113–C116: the HTTP server. -/
namespace Verif.Props
open Verif Verif.Str Verif.Interp Verif.Server

/-! ### C43 -/

private theorem count_set {l : List LPc} {i : Nat} {a b x : LPc} (h : l[i]? = some a) :
    (l.set i b).count x + (if a = x then 1 else 0) = l.count x + (if b = x then 1 else 0) := by
  induction l generalizing i with
  | nil => cases h
  | cons y r ih =>
    cases i with
    | zero =>
      rw [List.getElem?_cons_zero] at h
      cases h
      rw [List.set_cons_zero, List.count_cons, List.count_cons]
      simp only [beq_iff_eq]
      omega
    | succ j =>
      rw [List.getElem?_cons_succ] at h
      have := ih h
      rw [List.set_cons_succ, List.count_cons, List.count_cons]
      omega

private theorem count_pos_of {l : List LPc} {i : Nat} {a : LPc} (h : l[i]? = some a) : 0 < l.count a :=
  List.count_pos_iff.2 (List.mem_of_getElem? h)

/-- The counter is the number of handlers and of listeners that hold a count, and those that hold a
connection are at most the limit. -/
theorem C43_invariant {n : Nat} {c : Conn} (h : CReach n c) :
    c.active = c.handlers + c.listeners.count .take + c.listeners.count .refuse ∧
      c.handlers + c.listeners.count .take ≤ 1024 ∧ c.listeners.length = n := by
  induction h with
  | init => refine ⟨?_, ?_, ?_⟩ <;> simp [List.count_replicate]
  | @step c c' _ hs ih =>
    obtain ⟨h1, h2, h3⟩ := ih
    cases hs with
    | add i hi =>
      have hM : maxConn = 1024 := rfl
      by_cases hf : (maxConn : Int) ≤ c.active
      · rw [if_pos hf]
        have a := count_set (b := .refuse) (x := .take) hi
        have b := count_set (b := .refuse) (x := .refuse) hi
        simp at a b
        refine ⟨?_, ?_, by simpa using h3⟩
        · dsimp only
          rw [a, b]; push_cast; omega
        · dsimp only
          rw [a]; omega
      · rw [if_neg hf]
        have a := count_set (b := .take) (x := .take) hi
        have b := count_set (b := .take) (x := .refuse) hi
        simp at a b
        refine ⟨?_, ?_, by simpa using h3⟩
        · dsimp only
          rw [a, b]; push_cast; omega
        · dsimp only
          rw [a]; omega
    | sub i hi =>
      have a := count_set (b := .accept) (x := .take) hi
      have b := count_set (b := .accept) (x := .refuse) hi
      simp at a b
      refine ⟨?_, ?_, by simpa using h3⟩
      · dsimp only
        rw [a]; omega
      · dsimp only
        rw [a]; omega
    | failed i hi =>
      have a := count_set (b := .accept) (x := .take) hi
      have b := count_set (b := .accept) (x := .refuse) hi
      simp at a b
      refine ⟨?_, ?_, by simpa using h3⟩
      · dsimp only
        rw [b]; omega
      · dsimp only
        omega
    | spawn i hi =>
      have a := count_set (b := .accept) (x := .take) hi
      have b := count_set (b := .accept) (x := .refuse) hi
      simp at a b
      refine ⟨?_, ?_, by simpa using h3⟩
      · dsimp only
        rw [b]; push_cast; omega
      · dsimp only
        omega
    | finish hh =>
      refine ⟨?_, ?_, h3⟩
      · dsimp only
        omega
      · dsimp only
        omega

/-- At most 1024 handlers run; the counter is never negative and exceeds the limit by at most the number
of listeners; when every listener waits in accept it is the number of handlers. -/
theorem C43_limit {n : Nat} {c : Conn} (h : CReach n c) :
    c.handlers ≤ 1024 ∧ 0 ≤ c.active ∧ c.active ≤ 1024 + n ∧
      ((∀ l ∈ c.listeners, l = .accept) → c.active = c.handlers) := by
  obtain ⟨h1, h2, h3⟩ := C43_invariant h
  have h4 : c.listeners.count .refuse ≤ c.listeners.length := List.count_le_length
  refine ⟨by omega, by omega, by omega, fun ha => ?_⟩
  have a : c.listeners.count .take = 0 := List.count_eq_zero.2 fun hm => by cases ha _ hm
  have b : c.listeners.count .refuse = 0 := List.count_eq_zero.2 fun hm => by cases ha _ hm
  omega

/-- A connection that comes while 1024 handlers run is refused. -/
theorem C43_refused {n : Nat} {c : Conn} (h : CReach n c) (hf : c.handlers = 1024) {c' : Conn}
    (hs : CStep c c') {i : Nat} (h1 : c.listeners[i]? = some .accept) (h2 : c'.listeners[i]? ≠ some .accept) :
    c'.listeners[i]? = some .refuse := by
  obtain ⟨ha, hb, -⟩ := C43_invariant h
  have key : ∀ (j : Nat) (a b : LPc), c.listeners[j]? = some a → (c.listeners.set j b)[i]? ≠ some .accept →
      a = .accept ∧ i = j ∨ (i = j ∧ a ≠ .accept) := by
    intro j a b hj hn
    by_cases e : i = j
    · by_cases e2 : a = .accept
      · exact .inl ⟨e2, e⟩
      · exact .inr ⟨e, e2⟩
    · rw [List.getElem?_set_ne (fun x => e x.symm)] at hn
      exact absurd h1 hn
  cases hs with
  | add j hj =>
    have := key j _ _ hj h2
    have e : i = j := by rcases this with ⟨-, e⟩ | ⟨e, -⟩ <;> exact e
    subst e
    have hM : (maxConn : Int) ≤ c.active := by have : maxConn = 1024 := rfl; omega
    show (c.listeners.set i _)[i]? = _
    rw [if_pos hM, List.getElem?_set_self (List.getElem?_eq_some_iff.1 h1).1]
  | sub j hj =>
    rcases key j _ _ hj h2 with ⟨e, -⟩ | ⟨e, -⟩
    · cases e
    · subst e; rw [h1] at hj; cases hj
  | failed j hj =>
    rcases key j _ _ hj h2 with ⟨e, -⟩ | ⟨e, -⟩
    · cases e
    · subst e; rw [h1] at hj; cases hj
  | spawn j hj =>
    rcases key j _ _ hj h2 with ⟨e, -⟩ | ⟨e, -⟩
    · cases e
    · subst e; rw [h1] at hj; cases hj
  | finish _ => exact absurd h1 h2

/-- With one listener, a connection is refused only while 1024 handlers run. -/
theorem C43_accepted {c : Conn} (h : CReach 1 c) (hf : c.handlers < 1024) {c' : Conn} (hs : CStep c c')
    (h1 : c.listeners[0]? = some .accept) (h2 : c'.listeners[0]? ≠ some .accept) :
    c'.listeners[0]? = some .take := by
  obtain ⟨ha, hb, hc⟩ := C43_invariant h
  have hl : c.listeners = [.accept] := by
    match hx : c.listeners, hc, h1 with
    | [a], _, h1 => simp at h1; rw [h1]
  have only : ∀ (j : Nat) (a : LPc), c.listeners[j]? = some a → j = 0 ∧ a = .accept := by
    intro j a hj
    rw [hl] at hj
    cases j with
    | zero => simp at hj; exact ⟨rfl, hj.symm⟩
    | succ j => simp at hj
  cases hs with
  | add j hj =>
    have e := (only j _ hj).1
    subst e
    have hM : ¬ (maxConn : Int) ≤ c.active := by
      have : maxConn = 1024 := rfl
      rw [hl] at ha
      simp at ha
      omega
    show (c.listeners.set 0 _)[0]? = _
    rw [if_neg hM, hl]; rfl
  | sub j hj => cases (only j _ hj).2
  | failed j hj => cases (only j _ hj).2
  | spawn j hj => cases (only j _ hj).2
  | finish _ => exact absurd h1 h2

private theorem run_up (k : Nat) (hk : k ≤ 1024) : CReach 1 ⟨k, k, [.accept], 0⟩ := by
  induction k with
  | zero => exact .init
  | succ k ih =>
    have a := CReach.step (ih (by omega)) (.add 0 rfl)
    have hM : ¬ (maxConn : Int) ≤ (k : Int) := by have : maxConn = 1024 := rfl; omega
    have b := CReach.step a (.spawn 0 (by show ([LPc.accept].set 0 _)[0]? = _; rw [if_neg hM]; rfl))
    have e : ((k + 1 : Nat) : Int) = (k : Int) + 1 := by push_cast; rfl
    rw [e]
    exact b

/-- The limit is reached, and then a connection is refused. -/
example : CReach 1 ⟨1024, 1024, [.accept], 0⟩ ∧ CReach 1 ⟨1024, 1024, [.accept], 1⟩ :=
  ⟨run_up 1024 (by omega), .step (.step (run_up 1024 (by omega)) (.add 0 rfl)) (.sub 0 rfl)⟩

/-! ### C44 -/

/-- A segment of a pattern: text, or a parameter. -/
inductive Seg where
  | lit (s : Str)
  | par (name : Str)
  deriving DecidableEq

def Seg.text : Seg → Str
  | .lit s => s
  | .par n => 58 :: n

/-- Text is not empty and has no slash, colon or NUL; names have no slash or NUL. -/
def Seg.Good : Seg → Prop
  | .lit s => s ≠ [] ∧ 47 ∉ s ∧ 58 ∉ s ∧ 0 ∉ s
  | .par n => 47 ∉ n ∧ 0 ∉ n

/-- A path of segments, with or without a slash at the end. -/
def pathOf (segs : List Str) (trail : Bool) : Str :=
  segs.flatMap (fun s => 47 :: s) ++ if trail then [47] else []

/-- The parameters a pattern takes from a path, if it matches. -/
def segMatch : List Seg → List Str → Option (List (Str × Str))
  | [], [] => some []
  | .lit s :: ps, q :: qs => if s = q then segMatch ps qs else none
  | .par n :: ps, q :: qs => (segMatch ps qs).map fun bs => (n, q) :: bs
  | _, _ => none

/-- A route as the programmer thinks of it: method, segments, slash at the end. -/
structure Rt where
  method : Str
  segs : List Seg
  trail : Bool

def Rt.Good (r : Rt) : Prop := 0 ∉ r.method ∧ ∀ p ∈ r.segs, p.Good

def Rt.route (r : Rt) : Route := ⟨r.method, pathOf (r.segs.map Seg.text) r.trail⟩

/-- The first route that matches, and its parameters. -/
def firstMatch : List Rt → Nat → Str → List Str → Option (Nat × List (Str × Str))
  | [], _, _, _ => none
  | r :: rs, i, m, qs =>
    if r.method = m then
      match segMatch r.segs qs with
      | some bs => some (i, bs)
      | none => firstMatch rs (i + 1) m qs
    else firstMatch rs (i + 1) m qs

/-- What is required of a request: the method has no NUL, the segments of the path are not empty and have
no slash or NUL. -/
def ReqGood (m : Str) (qs : List Str) : Prop := 0 ∉ m ∧ ∀ q ∈ qs, q ≠ [] ∧ 47 ∉ q ∧ 0 ∉ q

/-- Every request goes to the first route that matches, and the handler sees exactly its parameters. -/
def C44_statement : Prop :=
  ∀ (rs : List Rt) (m : Str) (qs : List Str) (t : Bool), (∀ r ∈ rs, r.Good) → ReqGood m qs →
    match dispatch (rs.map Rt.route) m (pathOf qs t), firstMatch rs 0 m qs with
    | none, none => True
    | some (i, ps), some (j, bs) => i = j ∧ ∀ k, ps.lookup k = bs.reverse.lookup k
    | _, _ => False

def c44_routes : List Rt :=
  [⟨lit "GET", [.lit (lit "users"), .par (lit "id"), .lit (lit "x")], false⟩,
   ⟨lit "GET", [.lit (lit "users"), .par (lit "name")], false⟩]

/-- `/users/5` is served by `/users/:name`, and the handler also sees `id` of the route that did not
match. -/
theorem C44_witness :
    dispatch (c44_routes.map Rt.route) (lit "GET") (lit "/users/5") =
      some (1, [(lit "id", lit "5"), (lit "name", lit "5")]) ∧
    firstMatch c44_routes 0 (lit "GET") [lit "users", lit "5"] = some (1, [(lit "name", lit "5")]) := by
  decide +kernel

theorem C44_fails : ¬ C44_statement := by
  intro h
  have := h c44_routes (lit "GET") [lit "users", lit "5"] false
    (by
      intro r hr
      rw [c44_routes, List.mem_cons, List.mem_singleton] at hr
      rcases hr with rfl | rfl <;> refine ⟨by decide, ?_⟩ <;> intro p hp <;>
        simp only [List.mem_cons, List.not_mem_nil, or_false] at hp <;>
        rcases hp with rfl | rfl | rfl <;> simp only [Seg.Good] <;> decide)
    ⟨by decide, by decide⟩
  have e : pathOf [lit "users", lit "5"] false = lit "/users/5" := by decide +kernel
  rw [e, C44_witness.1, C44_witness.2] at this
  exact absurd (this.2 (lit "id")) (by decide +kernel)

/-! Maps. -/

private theorem lookup_set (ps : Params) (k v k' : Str) :
    (setKV ps k v).lookup k' = if k' = k then some v else ps.lookup k' := by
  induction ps with
  | nil =>
    rw [setKV, List.lookup_cons]
    by_cases h : k' = k
    · subst h; simp
    · rw [if_neg h, beq_eq_false_iff_ne.2 h]
  | cons x r ih =>
    obtain ⟨a, b⟩ := x
    rw [setKV]
    by_cases h : a = k
    · rw [if_pos h, List.lookup_cons, List.lookup_cons]
      subst h
      by_cases h2 : k' = a
      · subst h2; simp
      · rw [if_neg h2, beq_eq_false_iff_ne.2 h2]
    · rw [if_neg h, List.lookup_cons, List.lookup_cons]
      by_cases h2 : k' = a
      · subst h2; simp [h]
      · rw [beq_eq_false_iff_ne.2 h2]
        exact ih

def setAll (ps : Params) (bs : List (Str × Str)) : Params := bs.foldl (fun p b => setKV p b.1 b.2) ps

private theorem lookup_append' (a b : List (Str × Str)) (k : Str) :
    (a ++ b).lookup k = (a.lookup k).or (b.lookup k) := by
  induction a with
  | nil => simp
  | cons x r ih =>
    obtain ⟨u, v⟩ := x
    rw [List.cons_append, List.lookup_cons, List.lookup_cons]
    cases k == u
    · exact ih
    · rfl

private theorem lookup_setAll (bs : List (Str × Str)) (ps : Params) (k : Str) :
    (setAll ps bs).lookup k = (bs.reverse.lookup k).or (ps.lookup k) := by
  induction bs generalizing ps with
  | nil => simp [setAll]
  | cons b r ih =>
    show (setAll (setKV ps b.1 b.2) r).lookup k = _
    rw [ih, List.reverse_cons, lookup_append', lookup_set, Option.or_assoc]
    congr 1
    rw [List.lookup_cons]
    by_cases h : k = b.1
    · subst h; simp
    · rw [if_neg h, beq_eq_false_iff_ne.2 h]; rfl

/-! The loop of `match_route` by segments. -/

private def endOf : Option (Str × Str) → Bool
  | none => false
  | some (p, q) => matchEnd p q

/-- Empty, or starting with a slash. -/
private def Sl (s : Str) : Prop := s = [] ∨ ∃ r, s = 47 :: r

private theorem sl_path (segs : List Str) (t : Bool) : Sl (pathOf segs t) := by
  cases segs with
  | nil => cases t; exact .inl rfl; exact .inr ⟨[], rfl⟩
  | cons a r => exact .inr ⟨_, rfl⟩

private theorem pathOf_cons (a : Str) (r : List Str) (t : Bool) :
    pathOf (a :: r) t = 47 :: (a ++ pathOf r t) := by
  simp [pathOf]

private theorem take_slash {a s : Str} (h : 47 ∉ a) (hs : Sl s) :
    (a ++ s).takeWhile notSlash = a ∧ (a ++ s).dropWhile notSlash = s := by
  induction a with
  | nil =>
    rcases hs with rfl | ⟨r, rfl⟩
    · exact ⟨rfl, rfl⟩
    · exact ⟨rfl, rfl⟩
  | cons c r ih =>
    rw [List.mem_cons, not_or] at h
    have hc : notSlash c = true := by
      rw [notSlash, bne_iff_ne]; exact fun e => h.1 e.symm
    rw [List.cons_append, List.takeWhile_cons_of_pos hc, List.dropWhile_cons_of_pos hc, (ih h.2).1,
      (ih h.2).2]
    exact ⟨rfl, rfl⟩

private theorem mend_left {p q : Str} {c : Byte} (hc : c ≠ 47) : matchEnd (c :: p) q = false := by
  rw [matchEnd, if_neg (fun h => by cases h.1), if_neg (fun h => by cases h.1),
    if_neg (fun h => hc (by have := h.2; cases this; rfl))]

private theorem mend_right {p q : Str} {c : Byte} (hc : c ≠ 47) : matchEnd p (c :: q) = false := by
  rw [matchEnd, if_neg (fun h => by cases h.2), if_neg (fun h => hc (by have := h.2; cases this; rfl)),
    if_neg (fun h => by cases h.1)]

/-- Comparing text. -/
private theorem lit_loop {s : Str} (hs : 47 ∉ s) (hc : 58 ∉ s) {q S T : Str} (hq : 47 ∉ q) (hS : Sl S)
    (hT : Sl T) (f : Nat) (acc : Params) :
    (s = q → matchLoop (f + s.length) (s ++ S) (q ++ T) acc = matchLoop f S T acc) ∧
    (s ≠ q → ∃ r, matchLoop (f + 1 + s.length) (s ++ S) (q ++ T) acc = some (acc, r) ∧ endOf r = false) := by
  induction s generalizing q with
  | nil =>
    refine ⟨fun e => by subst e; rfl, fun e => ?_⟩
    obtain ⟨c, q, rfl⟩ := List.exists_cons_of_ne_nil (fun h => e h.symm)
    rw [List.mem_cons, not_or] at hq
    have hc' : c ≠ 47 := fun h => hq.1 h.symm
    rcases hS with rfl | ⟨r, rfl⟩
    · exact ⟨_, rfl, mend_right hc'⟩
    · refine ⟨none, ?_, rfl⟩
      show matchLoop (f + 1) (47 :: r) (c :: (q ++ T)) acc = _
      rw [matchLoop, if_neg (by decide), if_pos (fun h => hc' h.symm)]
  | cons c s ih =>
    rw [List.mem_cons, not_or] at hs hc
    have h1 : ¬ c = colon := fun h => hc.1 h.symm
    have h2 : c ≠ 47 := fun h => hs.1 h.symm
    constructor
    · intro e
      subst e
      show matchLoop (f + s.length + 1) (c :: (s ++ S)) (c :: (s ++ T)) acc = _
      rw [matchLoop, if_neg h1, if_neg (fun h => h rfl)]
      exact (ih hs.2 hc.2 hs.2).1 rfl
    · intro e
      show ∃ r, matchLoop (f + 1 + s.length + 1) (c :: (s ++ S)) (q ++ T) acc = _ ∧ _
      cases q with
      | nil =>
        rcases hT with rfl | ⟨r, rfl⟩
        · exact ⟨_, rfl, mend_left h2⟩
        · refine ⟨none, ?_, rfl⟩
          show matchLoop (f + 1 + s.length + 1) (c :: (s ++ S)) (47 :: r) acc = _
          rw [matchLoop, if_neg h1, if_pos h2]
      | cons d q =>
        rw [List.mem_cons, not_or] at hq
        show ∃ r, matchLoop (f + 1 + s.length + 1) (c :: (s ++ S)) (d :: (q ++ T)) acc = _ ∧ _
        rw [matchLoop, if_neg h1]
        by_cases hd : c = d
        · subst hd
          rw [if_neg (fun h => h rfl)]
          exact (ih hs.2 hc.2 hq.2).2 (fun h => e (by rw [h]))
        · rw [if_pos hd]
          exact ⟨none, rfl, rfl⟩

private theorem ml_slash (f : Nat) (p q : Str) (acc : Params) :
    matchLoop (f + 1) (47 :: p) (47 :: q) acc = matchLoop f p q acc := by
  rw [matchLoop, if_neg (by decide), if_neg (fun h => h rfl)]

private theorem text_head {p : Seg} (h : p.Good) : ∃ c r, p.text = c :: r ∧ c ≠ 47 := by
  cases p with
  | lit s =>
    obtain ⟨c, r, e⟩ := List.exists_cons_of_ne_nil h.1
    refine ⟨c, r, e, fun hc => h.2.1 ?_⟩
    rw [e, hc]; exact List.mem_cons_self
  | par n => exact ⟨58, n, rfl, by decide⟩

private theorem match_segs (ps : List Seg) (u : Bool) (hp : ∀ p ∈ ps, p.Good) (qs : List Str) (t : Bool)
    (hq : ∀ q ∈ qs, q ≠ [] ∧ 47 ∉ q ∧ 0 ∉ q) (f : Nat)
    (hf : (pathOf (ps.map Seg.text) u).length < f) (acc : Params) :
    ∃ acc' r, matchLoop f (pathOf (ps.map Seg.text) u) (pathOf qs t) acc = some (acc', r) ∧
      endOf r = (segMatch ps qs).isSome ∧
      (∀ bs, segMatch ps qs = some bs → acc' = setAll acc bs) ∧
      ((∀ p ∈ ps, ∃ s, p = .lit s) → acc' = acc) := by
  induction ps generalizing qs f acc with
  | nil =>
    cases qs with
    | nil =>
      have hx : ∃ r, matchLoop f (pathOf ([].map Seg.text) u) (pathOf [] t) acc = some (acc, r) ∧
          endOf r = true := by
        obtain ⟨f, rfl⟩ : ∃ g, f = g + 1 := ⟨f - 1, by omega⟩
        cases u <;> cases t
        · exact ⟨_, rfl, rfl⟩
        · exact ⟨_, rfl, by decide⟩
        · exact ⟨_, rfl, by decide⟩
        · obtain ⟨f, rfl⟩ : ∃ g, f = g + 1 := ⟨f - 1, by simp [pathOf] at hf; omega⟩
          refine ⟨some ([], []), ?_, by decide⟩
          show matchLoop (f + 1 + 1) [47] [47] acc = _
          rw [ml_slash]; rfl
      obtain ⟨r, h1, h2⟩ := hx
      exact ⟨acc, r, h1, by rw [h2]; rfl, fun bs e => (by cases e; rfl), fun _ => rfl⟩
    | cons q qs =>
      have hq' := hq q (by simp)
      obtain ⟨c, q', rfl⟩ := List.exists_cons_of_ne_nil hq'.1
      have hc : c ≠ 47 := fun h => hq'.2.1 (by rw [h]; simp)
      have hx : ∃ r, matchLoop f (pathOf ([].map Seg.text) u) (pathOf ((c :: q') :: qs) t) acc = some (acc, r) ∧
          endOf r = false := by
        obtain ⟨f, rfl⟩ : ∃ g, f = g + 1 := ⟨f - 1, by omega⟩
        rw [pathOf_cons]
        cases u
        · exact ⟨_, rfl, by
            show matchEnd [] (47 :: (c :: q' ++ pathOf qs t)) = false
            rw [matchEnd, if_neg (fun h => by cases h.2), if_neg (fun h => by cases h.2),
              if_neg (fun h => by cases h.1)]⟩
        · obtain ⟨f, rfl⟩ : ∃ g, f = g + 1 := ⟨f - 1, by simp [pathOf] at hf; omega⟩
          refine ⟨some ([], c :: (q' ++ pathOf qs t)), ?_, mend_right hc⟩
          show matchLoop (f + 1 + 1) (47 :: []) (47 :: _) acc = _
          rw [ml_slash]; rfl
      obtain ⟨r, h1, h2⟩ := hx
      exact ⟨acc, r, h1, by rw [h2]; rfl, fun bs e => (by cases e), fun _ => rfl⟩
  | cons p ps ih =>
    have hpg := hp p (by simp)
    obtain ⟨f, rfl⟩ : ∃ g, f = g + 1 := ⟨f - 1, by omega⟩
    rw [List.map_cons, pathOf_cons, List.length_cons] at hf
    rw [List.map_cons, pathOf_cons]
    cases qs with
    | nil =>
      obtain ⟨c, r, e, hc⟩ := text_head hpg
      have hn : segMatch (p :: ps) [] = none := by cases p <;> rfl
      have hx : ∃ r, matchLoop (f + 1) (47 :: (p.text ++ pathOf (ps.map Seg.text) u)) (pathOf [] t) acc =
          some (acc, r) ∧ endOf r = false := by
        rw [e]
        cases t
        · refine ⟨_, rfl, ?_⟩
          show matchEnd (47 :: (c :: r ++ _)) [] = false
          rw [matchEnd, if_neg (fun h => by cases h.1), if_neg (fun h => by cases h.1),
            if_neg (fun h => by cases h.2)]
        · obtain ⟨f, rfl⟩ : ∃ g, f = g + 1 := ⟨f - 1, by rw [e] at hf; simp at hf; omega⟩
          refine ⟨some (c :: (r ++ pathOf (ps.map Seg.text) u), []), ?_, mend_left hc⟩
          show matchLoop (f + 1 + 1) (47 :: _) (47 :: []) acc = _
          rw [ml_slash]; rfl
      obtain ⟨r', h1, h2⟩ := hx
      exact ⟨acc, r', h1, by rw [h2, hn]; rfl, fun bs e => (by rw [hn] at e; cases e), fun _ => rfl⟩
    | cons q qs =>
      have hqg := hq q (by simp)
      have hq' : ∀ x ∈ qs, x ≠ [] ∧ 47 ∉ x ∧ 0 ∉ x := fun x hx => hq x (List.mem_cons_of_mem _ hx)
      have hp' : ∀ x ∈ ps, x.Good := fun x hx => hp x (List.mem_cons_of_mem _ hx)
      rw [pathOf_cons, ml_slash]
      cases p with
      | lit s =>
        have hl := lit_loop hpg.2.1 hpg.2.2.1 hqg.2.1 (sl_path (ps.map Seg.text) u) (sl_path qs t)
        by_cases e : s = q
        · subst e
          rw [Seg.text, List.length_append] at hf
          obtain ⟨g, rfl⟩ : ∃ g, f = g + s.length := ⟨f - s.length, by omega⟩
          obtain ⟨acc', r, h1, h2, h3, h4⟩ := ih hp' qs hq' g (by omega) acc
          refine ⟨acc', r, ?_, ?_, ?_, ?_⟩
          · rw [Seg.text, (hl g acc).1 rfl, h1]
          · rw [segMatch, if_pos rfl]; exact h2
          · rw [segMatch, if_pos rfl]; exact h3
          · exact fun hh => h4 fun x hx => hh x (List.mem_cons_of_mem _ hx)
        · have hn : segMatch (.lit s :: ps) (q :: qs) = none := by rw [segMatch, if_neg e]
          rw [Seg.text, List.length_append] at hf
          obtain ⟨g, rfl⟩ : ∃ g, f = g + 1 + s.length := ⟨f - 1 - s.length, by omega⟩
          obtain ⟨r, h1, h2⟩ := (hl g acc).2 e
          exact ⟨acc, r, h1, by rw [h2, hn]; rfl, fun bs e => (by rw [hn] at e; cases e), fun _ => rfl⟩
      | par n =>
        obtain ⟨c, q', rfl⟩ := List.exists_cons_of_ne_nil hqg.1
        obtain ⟨f, rfl⟩ : ∃ g, f = g + 1 := ⟨f - 1, by rw [Seg.text] at hf; simp at hf; omega⟩
        have ha := take_slash hpg.1 (sl_path (ps.map Seg.text) u)
        have hb := take_slash hqg.2.1 (sl_path qs t)
        have hf' : (pathOf (ps.map Seg.text) u).length < f := by
          rw [Seg.text] at hf; simp at hf; omega
        obtain ⟨acc', r, h1, h2, h3, h4⟩ := ih hp' qs hq' f hf' (setKV acc n (c :: q'))
        refine ⟨acc', r, ?_, ?_, ?_, ?_⟩
        · show matchLoop (f + 1) (58 :: (n ++ _)) (c :: (q' ++ _)) acc = _
          rw [matchLoop, if_pos (show (58 : Byte) = colon from rfl)]
          rw [ha.1, ha.2]
          rw [← List.cons_append, hb.1, hb.2]
          exact h1
        · rw [segMatch, h2, Option.isSome_map]
        · intro bs e
          rw [segMatch] at e
          cases e2 : segMatch ps qs with
          | none => rw [e2] at e; cases e
          | some bs' =>
            rw [e2] at e
            cases e
            exact h3 bs' e2
        · intro hh
          obtain ⟨s, hs⟩ := hh (.par n) (by simp)
          cases hs

private theorem path_nz {segs : List Str} (h : ∀ s ∈ segs, 0 ∉ s) (t : Bool) : (0 : Byte) ∉ pathOf segs t := by
  induction segs with
  | nil => cases t <;> decide
  | cons a r ih =>
    rw [pathOf_cons, List.mem_cons, List.mem_append]
    rintro (h1 | h1 | h1)
    · cases h1
    · exact h a (by simp) h1
    · exact ih (fun s hs => h s (List.mem_cons_of_mem _ hs)) h1

private theorem text_nz {p : Seg} (h : p.Good) : 0 ∉ p.text := by
  cases p with
  | lit s => exact h.2.2.2
  | par n =>
    rw [Seg.text, List.mem_cons]
    rintro (h1 | h1)
    · cases h1
    · exact h.2 h1

/-- One route. -/
private theorem match_rt {r : Rt} (hr : r.Good) {qs : List Str} (t : Bool)
    (hq : ∀ q ∈ qs, q ≠ [] ∧ 47 ∉ q ∧ 0 ∉ q) (acc : Params) :
    ∃ acc', matchRoute (cstr r.route.pattern) (pathOf qs t) acc = (acc', (segMatch r.segs qs).isSome) ∧
      (∀ bs, segMatch r.segs qs = some bs → acc' = setAll acc bs) ∧
      ((∀ p ∈ r.segs, ∃ s, p = .lit s) → acc' = acc) := by
  have e : cstr r.route.pattern = pathOf (r.segs.map Seg.text) r.trail := by
    rw [Rt.route, cstr_eq]
    refine path_nz ?_ _
    intro s hs
    obtain ⟨p, hp, rfl⟩ := List.mem_map.1 hs
    exact text_nz (hr.2 p hp)
  obtain ⟨acc', x, h1, h2, h3, h4⟩ := match_segs r.segs r.trail hr.2 qs t hq
    ((pathOf (r.segs.map Seg.text) r.trail).length + 1) (by omega) acc
  refine ⟨acc', ?_, h3, h4⟩
  rw [e, matchRoute, h1, ← h2]
  cases x <;> rfl

private theorem find_rt (rs : List Rt) (i : Nat) (m : Str) (qs : List Str) (t : Bool) (hr : ∀ r ∈ rs, r.Good)
    (hq : ∀ q ∈ qs, q ≠ [] ∧ 47 ∉ q ∧ 0 ∉ q) (acc : Params) :
    match findRoute (rs.map Rt.route) i m (pathOf qs t) acc, firstMatch rs i m qs with
    | none, none => True
    | some (j, ps), some (k, bs) => j = k ∧ i ≤ j ∧ j - i < rs.length ∧ (∃ acc', ps = setAll acc' bs ∧
        ((∀ r ∈ rs.take (j - i), r.method = m → ∀ p ∈ r.segs, ∃ s, p = .lit s) → acc' = acc))
    | _, _ => False := by
  induction rs generalizing i acc with
  | nil => simp [findRoute, firstMatch]
  | cons r rs ih =>
    have hg := hr r (by simp)
    have hr' : ∀ x ∈ rs, x.Good := fun x hx => hr x (List.mem_cons_of_mem _ hx)
    have hm : cstr r.route.method = r.method := cstr_eq hg.1
    rw [List.map_cons, findRoute, firstMatch, hm]
    have step : ∀ acc', ((r.method = m → ∀ p ∈ r.segs, ∃ s, p = .lit s) → acc' = acc) →
      match findRoute (rs.map Rt.route) (i + 1) m (pathOf qs t) acc', firstMatch rs (i + 1) m qs with
      | none, none => True
      | some (j, ps), some (k, bs) => j = k ∧ i ≤ j ∧ j - i < (r :: rs).length ∧ (∃ acc', ps = setAll acc' bs ∧
        ((∀ x ∈ (r :: rs).take (j - i), x.method = m → ∀ p ∈ x.segs, ∃ s, p = .lit s) → acc' = acc))
      | _, _ => False := by
      intro acc' ha
      have := ih (i + 1) hr' acc'
      cases h1 : findRoute (rs.map Rt.route) (i + 1) m (pathOf qs t) acc' <;>
        cases h2 : firstMatch rs (i + 1) m qs <;> rw [h1, h2] at this
      · trivial
      · exact this.elim
      · exact this.elim
      · rename_i a b
        obtain ⟨e1, e2, e3, acc2, e4, e5⟩ := this
        refine ⟨e1, by omega, by rw [List.length_cons]; omega, acc2, e4, fun hh => ?_⟩
        have e : a.1 - i = (a.1 - (i + 1)) + 1 := by omega
        rw [e, List.take_succ_cons] at hh
        rw [e5 fun x hx => hh x (List.mem_cons_of_mem _ hx)]
        exact ha fun hx => hh r (by simp) hx
    by_cases he : r.method = m
    · rw [if_pos he, if_pos he]
      obtain ⟨acc', h1, h2, h3⟩ := match_rt hg t hq acc
      rw [h1]
      cases h4 : segMatch r.segs qs with
      | none => exact step acc' fun hx => h3 (hx he)
      | some bs =>
        refine ⟨rfl, Nat.le_refl _, by rw [List.length_cons]; omega, acc, h2 bs h4, fun _ => rfl⟩
    · rw [if_neg he, if_neg he]
      exact step acc fun _ => rfl

/-- The request goes to the first route that matches, and the route's own parameters have their values.
Missing: parameters of routes tried before are seen as well. -/
theorem C44_partial (rs : List Rt) (m : Str) (qs : List Str) (t : Bool) (hr : ∀ r ∈ rs, r.Good)
    (hq : ReqGood m qs) :
    match dispatch (rs.map Rt.route) m (pathOf qs t), firstMatch rs 0 m qs with
    | none, none => True
    | some (i, ps), some (j, bs) => i = j ∧ ∀ k ∈ bs.map Prod.fst, ps.lookup k = bs.reverse.lookup k
    | _, _ => False := by
  have h := find_rt rs 0 m qs t hr hq.2 []
  rw [dispatch, cstr_eq hq.1, cstr_eq (path_nz (fun s hs => (hq.2 s hs).2.2) t)]
  revert h
  cases findRoute (rs.map Rt.route) 0 m (pathOf qs t) [] <;> cases firstMatch rs 0 m qs
  · exact id
  · exact id
  · exact id
  · rename_i a b
    rintro ⟨e1, -, -, acc', e2, -⟩
    refine ⟨e1, fun k hk => ?_⟩
    rw [e2, lookup_setAll]
    obtain ⟨v, hv⟩ : ∃ v, b.2.reverse.lookup k = some v := by
      have hk' : k ∈ b.2.reverse.map Prod.fst := by simpa using hk
      generalize b.2.reverse = l at hk'
      induction l with
      | nil => cases hk'
      | cons x r ih =>
        obtain ⟨y, z⟩ := x
        rw [List.lookup_cons]
        by_cases hky : k = y
        · subst hky; exact ⟨z, by simp⟩
        · rw [beq_eq_false_iff_ne.2 hky]
          rw [List.map_cons, List.mem_cons] at hk'
          exact ih (hk'.resolve_left hky)
    rw [hv]; rfl

/-- The handler sees exactly the parameters of its route when the routes of the same method before it have
none. -/
theorem C44_exact_partial (rs : List Rt) (m : Str) (qs : List Str) (t : Bool) (hr : ∀ r ∈ rs, r.Good)
    (hq : ReqGood m qs) {i : Nat} {ps : Params}
    (hd : dispatch (rs.map Rt.route) m (pathOf qs t) = some (i, ps))
    (hl : ∀ r ∈ rs.take i, r.method = m → ∀ p ∈ r.segs, ∃ s, p = .lit s) :
    ∃ bs, firstMatch rs 0 m qs = some (i, bs) ∧ ∀ k, ps.lookup k = bs.reverse.lookup k := by
  have h := find_rt rs 0 m qs t hr hq.2 []
  rw [dispatch, cstr_eq hq.1, cstr_eq (path_nz (fun s hs => (hq.2 s hs).2.2) t)] at hd
  rw [hd] at h
  revert h
  cases firstMatch rs 0 m qs with
  | none => exact False.elim
  | some b =>
    rintro ⟨e1, -, -, acc', e2, e3⟩
    have e3 := e3 hl
    refine ⟨b.2, by rw [← show b.1 = i from e1.symm], fun k => ?_⟩
    rw [e2, e3, lookup_setAll]
    simp

/-- Whatever the pattern and the path, matching ends. -/
theorem C44_terminates (pat path : Str) (ps : Params) : matchLoop (pat.length + 1) pat path ps ≠ none := by
  have key : ∀ (f : Nat) (pat path : Str) (ps : Params), pat.length < f → matchLoop f pat path ps ≠ none := by
    intro f
    induction f with
    | zero => intro pat path ps h; omega
    | succ f ih =>
      intro pat path ps h
      match pat, path with
      | [], _ => simp [matchLoop]
      | c :: pat, [] => simp [matchLoop]
      | c :: pat, d :: path =>
        rw [List.length_cons] at h
        rw [matchLoop]
        split
        · refine ih _ _ _ ?_
          have : (pat.dropWhile notSlash).length ≤ pat.length := (List.dropWhile_suffix _).length_le
          omega
        · split
          · simp
          · exact ih _ _ _ (by omega)
  exact key _ _ _ _ (by omega)

/-- A parameter takes an empty segment of the path. -/
theorem C44_empty_fails :
    dispatch [⟨lit "GET", lit "/users/:id/edit"⟩] (lit "GET") (lit "/users//edit") =
      some (0, [(lit "id", [])]) := by decide +kernel

example : dispatch (c44_routes.map Rt.route) (lit "GET") (lit "/users/5/x/") =
    some (0, [(lit "id", lit "5")]) ∧
    dispatch (c44_routes.map Rt.route) (lit "POST") (lit "/users/5/x") = none ∧
    dispatch (c44_routes.map Rt.route) (lit "GET") (lit "/users") = none := by decide +kernel

/-! ### C113, C114 -/

def crlf : Str := [13, 10]

/-- A message with these header lines and this body. -/
def Frames (resp : Str) (hs : List Str) (body : Str) : Prop :=
  resp = hs.flatMap (· ++ crlf) ++ crlf ++ body ∧ ∀ l ∈ hs, l ≠ [] ∧ 13 ∉ l ∧ 10 ∉ l

/-- Every response that is not a redirect reaches the client as a message whose body is the handler's, with
its length given. -/
def C113_statement : Prop :=
  ∀ (o : Option Str) (r : Response), isRedirect r = false → 13 ∉ r.ctype → 10 ∉ r.ctype →
    ∃ hs, Frames (sendResp o r) hs r.body ∧ (lit "Content-Length: " ++ decimal r.body.length) ∈ hs

private theorem last_of {a b : Str} {x y : Byte} (h : a ++ [x] = b ++ [y]) : x = y := by
  have := congrArg List.getLast? h
  simpa using this

/-- A body of one NUL: the length says one, and nothing is sent. -/
theorem C113_witness : ¬ ∃ hs, Frames (sendResp none ⟨200, lit "text/plain", [0]⟩) hs [0] := by
  rintro ⟨hs, h, -⟩
  have e : sendResp none ⟨200, lit "text/plain", [0]⟩ =
      lit "HTTP/1.1 200 OK\r\nContent-Type: text/plain\r\nContent-Length: 1\r\nConnection: close\r\n\r" ++ [10] := by
    decide +kernel
  rw [e] at h
  exact absurd (last_of h) (by decide)

theorem C113_fails : ¬ C113_statement := fun h => by
  obtain ⟨hs, h, -⟩ := h none ⟨200, lit "text/plain", [0]⟩ (by decide) (by decide) (by decide)
  exact C113_witness ⟨hs, h⟩

/-- No body of 65534 bytes or more arrives. -/
theorem C113_long_fails (o : Option Str) (r : Response) (h : 65534 ≤ r.body.length) :
    ¬ ∃ hs, Frames (sendResp o r) hs r.body := by
  rintro ⟨hs, h1, -⟩
  have a : (sendResp o r).length ≤ 65535 := by rw [sendResp]; exact List.length_take_le _ _
  rw [h1] at a
  simp [crlf] at a
  omega

/-- The header lines of a response. -/
def headLines (o : Option Str) (r : Response) : List Str :=
  (lit "HTTP/1.1 " ++ decInt r.status ++ lit " " ++ reason r.status) ::
  (if isRedirect r then [lit "Location: " ++ r.body, lit "Content-Length: 0"]
   else [lit "Content-Type: " ++ r.ctype, lit "Content-Length: " ++ decimal r.body.length]) ++
  (match o with
   | none => []
   | some x => [lit "Access-Control-Allow-Origin: " ++ x,
      lit "Access-Control-Allow-Methods: GET, POST, PUT, DELETE, PATCH, OPTIONS",
      lit "Access-Control-Allow-Headers: Content-Type, Authorization"]) ++
  [lit "Connection: close"]

def sentBody (r : Response) : Str := if isRedirect r then [] else r.body

/-- Every response has exactly the header lines the server means to send. -/
def C114_statement : Prop :=
  ∀ (o : Option Str) (r : Response), (∀ x, o = some x → ∃ y, setCors y = some x) →
    ∃ body, Frames (sendResp o r) (headLines o r) body

/-- A redirect to a location with a line break sends a header line of the location's choice. -/
theorem C114_witness : Frames (sendResp none ⟨302, [], lit "/x\r\nSet-Cookie: a=b"⟩)
    [lit "HTTP/1.1 302 Found", lit "Location: /x", lit "Set-Cookie: a=b", lit "Content-Length: 0",
      lit "Connection: close"] [] := by
  refine ⟨by decide +kernel, by decide +kernel⟩

theorem C114_fails : ¬ C114_statement := fun h => by
  obtain ⟨body, -, h⟩ := h none ⟨302, [], lit "/x\r\nSet-Cookie: a=b"⟩ (fun _ h => by cases h)
  exact absurd (h (lit "Location: /x\r\nSet-Cookie: a=b") (by decide +kernel)) (by decide +kernel)

/-- A CORS origin of 400 bytes is accepted and cuts off the line after it: `Connection: close` is no header
line of its own. -/
theorem C114_cors_fails :
    setCors (List.replicate 400 97) = some (List.replicate 400 97) ∧
    Frames (sendResp (some (List.replicate 400 97)) ⟨200, lit "text/plain", lit "ok"⟩)
      [lit "HTTP/1.1 200 OK", lit "Content-Type: text/plain", lit "Content-Length: 2",
        lit "Access-Control-Allow-Origin: " ++ List.replicate 400 97,
        lit "Access-Control-Allow-Methods: GET, POST, PUT, DELETE, PATCH, OPTIONS",
        lit "Access-ConConnection: close"] (lit "ok") := by
  refine ⟨by decide +kernel, ?_, ?_⟩
  · decide +kernel
  · decide +kernel

private theorem reason_ok (z : Int) : 13 ∉ reason z ∧ 10 ∉ reason z := by
  have key : ∀ (c : Prop) [Decidable c] (a b : Str), (13 ∉ a ∧ 10 ∉ a) → (13 ∉ b ∧ 10 ∉ b) →
      13 ∉ (if c then a else b) ∧ 10 ∉ (if c then a else b) := by
    intro c _ a b ha hb
    by_cases h : c
    · rw [if_pos h]; exact ha
    · rw [if_neg h]; exact hb
  unfold reason
  repeat' apply key
  all_goals decide +kernel

private theorem digits_ok (n : Nat) : 13 ∉ decimal n ∧ 10 ∉ decimal n := by
  have key : ∀ c ∈ decimal n, c ≠ 13 ∧ c ≠ 10 := by
    intro c hc
    rw [decimal, List.mem_map] at hc
    obtain ⟨d, hd, rfl⟩ := hc
    have h := Nat.isDigit_of_mem_toDigits (by omega) (by omega) hd
    rw [Char.isDigit, Bool.and_eq_true, decide_eq_true_eq, decide_eq_true_eq] at h
    have h1 : 48 ≤ d.toNat := h.1
    have h2 : d.toNat ≤ 57 := h.2
    have e : (ch d).toNat = d.toNat := by
      rw [ch, BitVec.toNat_ofNat]; omega
    constructor
    · intro h3
      rw [h3] at e
      have : (13 : Byte).toNat = 13 := rfl
      omega
    · intro h3
      rw [h3] at e
      have : (10 : Byte).toNat = 10 := rfl
      omega
  exact ⟨fun h => (key _ h).1 rfl, fun h => (key _ h).2 rfl⟩

private theorem decInt_ok (z : Int) : 13 ∉ decInt z ∧ 10 ∉ decInt z := by
  cases z with
  | ofNat n => exact digits_ok n
  | negSucc n =>
    have := digits_ok (n + 1)
    constructor
    · rw [decInt, List.mem_append, not_or]; exact ⟨by decide, this.1⟩
    · rw [decInt, List.mem_append, not_or]; exact ⟨by decide, this.2⟩

private theorem line_ok {a b : Str} (ha : a ≠ [] ∧ 13 ∉ a ∧ 10 ∉ a) (hb : 13 ∉ b ∧ 10 ∉ b) :
    a ++ b ≠ [] ∧ 13 ∉ a ++ b ∧ 10 ∉ a ++ b := by
  refine ⟨fun h => ha.1 (List.append_eq_nil_iff.1 h).1, ?_, ?_⟩
  · rw [List.mem_append, not_or]; exact ⟨ha.2.1, hb.1⟩
  · rw [List.mem_append, not_or]; exact ⟨ha.2.2, hb.2⟩

private theorem cors_exact {x : Str} (h : x.length ≤ 351) :
    corsLines (some x) = lit "Access-Control-Allow-Origin: " ++ x ++ lit "\r\n" ++
      lit "Access-Control-Allow-Methods: GET, POST, PUT, DELETE, PATCH, OPTIONS\r\n" ++
      lit "Access-Control-Allow-Headers: Content-Type, Authorization\r\n" := by
  rw [corsLines, List.take_of_length_le]
  have h1 : (lit "Access-Control-Allow-Origin: ").length = 29 := by decide +kernel
  have h2 : (lit "\r\n").length = 2 := by decide +kernel
  have h3 : (lit "Access-Control-Allow-Methods: GET, POST, PUT, DELETE, PATCH, OPTIONS\r\n").length = 70 := by
    decide +kernel
  have h4 : (lit "Access-Control-Allow-Headers: Content-Type, Authorization\r\n").length = 59 := by
    decide +kernel
  have h5 : corsBuf = 512 := rfl
  simp only [List.length_append, h1, h2, h3, h4, h5]
  omega

/-- The lines are exactly those meant, and the body is the handler's, when the location, or the content type
and the body, have no NUL, the location or content type has no line break, the origin has at most 351
bytes, and the whole fits in 65535 bytes. Missing: line breaks and NULs, long origins, and long
responses. -/
theorem C114_partial (o : Option Str) (r : Response) (ho : ∀ x, o = some x → x.length ≤ 351 ∧ 13 ∉ x ∧ 10 ∉ x)
    (hb : 0 ∉ r.body) (hc : 0 ∉ r.ctype) (hc' : 13 ∉ r.ctype ∧ 10 ∉ r.ctype)
    (hl : isRedirect r = true → 13 ∉ r.body ∧ 10 ∉ r.body)
    (hf : ((headLines o r).flatMap (· ++ crlf) ++ crlf ++ sentBody r).length < 65536) :
    Frames (sendResp o r) (headLines o r) (sentBody r) := by
  have h2 : lit "\r\n" = crlf := by decide
  have hrn : ∀ s t : String, lit (s ++ t) = lit s ++ lit t := fun s t => by simp [lit]
  have hcl : lit "Connection: close\r\n" = lit "Connection: close" ++ crlf := by decide +kernel
  have hc0 : lit "Content-Length: 0\r\n" = lit "Content-Length: 0" ++ crlf := by decide +kernel
  have hm : lit "Access-Control-Allow-Methods: GET, POST, PUT, DELETE, PATCH, OPTIONS\r\n" =
    lit "Access-Control-Allow-Methods: GET, POST, PUT, DELETE, PATCH, OPTIONS" ++ crlf := by decide +kernel
  have hh : lit "Access-Control-Allow-Headers: Content-Type, Authorization\r\n" =
    lit "Access-Control-Allow-Headers: Content-Type, Authorization" ++ crlf := by decide +kernel
  have e : sendResp o r = ((headLines o r).flatMap (· ++ crlf) ++ crlf ++ sentBody r).take 65535 := by
    rw [sendResp, show respBuf - 1 = 65535 from rfl, cstr_eq hb, cstr_eq hc, sentBody]
    unfold headLines
    congr 1
    cases o with
    | none =>
      cases isRedirect r
      · simp only [Bool.false_eq_true, if_false, corsLines, h2, hcl]
        simp [List.append_assoc]
      · simp only [if_true, corsLines, h2, hcl, hc0]
        simp [List.append_assoc]
    | some x =>
      rw [cors_exact (ho x rfl).1]
      cases isRedirect r
      · simp only [Bool.false_eq_true, if_false, h2, hcl, hm, hh]
        simp [List.append_assoc]
      · simp only [if_true, h2, hcl, hc0, hm, hh]
        simp [List.append_assoc]
  refine ⟨by rw [e, List.take_of_length_le (by omega)], ?_⟩
  intro l hl'
  unfold headLines at hl'
  rw [List.mem_append, List.mem_append, List.mem_cons, List.mem_singleton] at hl'
  rcases hl' with ((rfl | h) | h) | rfl
  · exact line_ok (line_ok (line_ok (by decide +kernel) (decInt_ok _)) (by decide +kernel)) (reason_ok _)
  · cases hr : isRedirect r
    · rw [hr] at h
      simp only [Bool.false_eq_true, if_false, List.mem_cons, List.not_mem_nil, or_false] at h
      rcases h with rfl | rfl
      · exact line_ok (by decide +kernel) hc'
      · exact line_ok (by decide +kernel) (digits_ok _)
    · rw [hr] at h
      simp only [if_true, List.mem_cons, List.not_mem_nil, or_false] at h
      rcases h with rfl | rfl
      · exact line_ok (by decide +kernel) (hl hr)
      · decide +kernel
  · cases o with
    | none => cases h
    | some x =>
      simp only [List.mem_cons, List.not_mem_nil, or_false] at h
      rcases h with rfl | rfl | rfl
      · exact line_ok (by decide +kernel) (ho x rfl).2
      · decide +kernel
      · decide +kernel
  · decide +kernel

/-- The body arrives, with its length. Missing: as for C114. -/
theorem C113_partial (o : Option Str) (r : Response) (ho : ∀ x, o = some x → x.length ≤ 351 ∧ 13 ∉ x ∧ 10 ∉ x)
    (hr : isRedirect r = false) (hb : 0 ∉ r.body) (hc : 0 ∉ r.ctype) (hc' : 13 ∉ r.ctype ∧ 10 ∉ r.ctype)
    (hf : ((headLines o r).flatMap (· ++ crlf) ++ crlf ++ r.body).length < 65536) :
    ∃ hs, Frames (sendResp o r) hs r.body ∧ (lit "Content-Length: " ++ decimal r.body.length) ∈ hs := by
  have e : sentBody r = r.body := by rw [sentBody, hr]; rfl
  refine ⟨headLines o r, ?_, ?_⟩
  · have := C114_partial o r ho hb hc hc' (fun h => by rw [hr] at h; cases h) (by rw [e]; exact hf)
    rw [e] at this
    exact this
  · unfold headLines
    rw [hr]
    simp

/-- An origin that was accepted has no line break. -/
theorem C114_cors {y x : Str} (h : setCors y = some x) : 13 ∉ x ∧ 10 ∉ x ∧ 0 ∉ x := by
  rw [setCors] at h
  split at h
  · cases h
  · rename_i hy
    cases h
    rw [Bool.not_eq_true, List.any_eq_false] at hy
    refine ⟨fun hm => hy _ ((List.takeWhile_sublist _).subset hm) (by decide),
      fun hm => hy _ ((List.takeWhile_sublist _).subset hm) (by decide), fun hm => ?_⟩
    have := mem_takeWhile hm
    exact absurd this (by decide)

example : Frames (sendResp (some (lit "*")) ⟨200, lit "text/plain", lit "hi"⟩)
    (headLines (some (lit "*")) ⟨200, lit "text/plain", lit "hi"⟩) (lit "hi") :=
  C114_partial _ _ (fun x h => by cases h; decide) (by decide) (by decide) (by decide)
    (fun h => absurd h (by decide)) (by decide +kernel)

/-! ### C115 -/

/-- A query string of `key=value` pairs and keys without `=`. -/
def queryText : List (Str × Option Str) → Str
  | [] => []
  | [(k, v)] => k ++ (match v with | none => [] | some v => 61 :: v)
  | (k, v) :: r => k ++ (match v with | none => [] | some v => 61 :: v) ++ 38 :: queryText r

def pairs (l : List (Str × Option Str)) : List (Str × Str) := l.filterMap fun p => p.2.map fun v => (p.1, v)

def QGood (l : List (Str × Option Str)) : Prop :=
  ∀ p ∈ l, 61 ∉ p.1 ∧ 38 ∉ p.1 ∧ ∀ v, p.2 = some v → 38 ∉ v

/-- The request has exactly the pairs of its query string. -/
def C115_statement : Prop :=
  ∀ l, QGood l → ∀ k, (parseQuery (queryText l)).lookup k = (pairs l).reverse.lookup k

/-- `a&b=1` has the single key `a&b`. -/
theorem C115_witness : parseQuery (lit "a&b=1") = [(lit "a&b", lit "1")] := by decide +kernel

theorem C115_fails : ¬ C115_statement := fun h => by
  have := h [(lit "a", none), (lit "b", some (lit "1"))] (by
    intro p hp
    simp only [List.mem_cons, List.not_mem_nil, or_false] at hp
    rcases hp with rfl | rfl
    · exact ⟨by decide, by decide, fun v h => by cases h⟩
    · exact ⟨by decide, by decide, fun v h => by cases h; decide⟩) (lit "b")
  revert this
  decide +kernel

private theorem cut_app {c : Byte} {a b : Str} (h : c ∉ a) : cut c (a ++ c :: b) = some (a, b) := by
  induction a with
  | nil => rw [List.nil_append, cut, if_pos rfl]
  | cons x r ih =>
    rw [List.mem_cons, not_or] at h
    rw [List.cons_append, cut, if_neg (fun e => h.1 e.symm), ih h.2]; rfl

private theorem cut_none {c : Byte} {a : Str} (h : c ∉ a) : cut c a = none := by
  induction a with
  | nil => rfl
  | cons x r ih =>
    rw [List.mem_cons, not_or] at h
    rw [cut, if_neg (fun e => h.1 e.symm), ih h.2]; rfl

private theorem query_loop (l : List (Str × Str)) (last : Option Str)
    (hg : ∀ p ∈ l, 61 ∉ p.1 ∧ 38 ∉ p.1 ∧ 38 ∉ p.2) (hl : ∀ k, last = some k → 61 ∉ k) (f : Nat) (acc : Params)
    (hf : (queryText (l.map (fun p => (p.1, some p.2)) ++ last.toList.map fun k => (k, none))).length < f) :
    queryLoop f (queryText (l.map (fun p => (p.1, some p.2)) ++ last.toList.map fun k => (k, none))) acc =
      some (setAll acc l) := by
  induction l generalizing f acc with
  | nil =>
    obtain ⟨f, rfl⟩ : ∃ g, f = g + 1 := ⟨f - 1, by omega⟩
    cases last with
    | none => rfl
    | some k =>
      show queryLoop (f + 1) (k ++ []) acc = _
      rw [List.append_nil]
      cases k with
      | nil => rfl
      | cons c k => rw [queryLoop, cut_none (hl _ rfl)]; rfl
  | cons p l ih =>
    obtain ⟨f, rfl⟩ : ∃ g, f = g + 1 := ⟨f - 1, by omega⟩
    obtain ⟨k, v⟩ := p
    have hp := hg (k, v) (by simp)
    have ne : ∀ (t : Str), queryLoop (f + 1) (k ++ 61 :: t) acc =
        match cut 38 t with
        | none => some (setKV acc k t)
        | some (val, next) => queryLoop f next (setKV acc k val) := by
      intro t
      have hx : cut 61 (k ++ 61 :: t) = some (k, t) := cut_app hp.1
      cases hk : k ++ 61 :: t with
      | nil => simp at hk
      | cons c s =>
        rw [queryLoop, ← hk, hx]
        rfl
    rw [List.map_cons, List.cons_append] at hf ⊢
    cases hr : l.map (fun p => (p.1, some p.2)) ++ last.toList.map (fun k => ((k, none) : Str × Option Str)) with
    | nil =>
      rw [hr] at hf
      show queryLoop (f + 1) (k ++ 61 :: v) acc = _
      rw [ne, cut_none hp.2.2]
      have : l = [] := by
        cases l with
        | nil => rfl
        | cons _ _ => simp at hr
      subst this
      rfl
    | cons y ys =>
      rw [hr] at hf
      have e : queryText ((k, some v) :: y :: ys) = k ++ 61 :: (v ++ 38 :: queryText (y :: ys)) := by
        rw [queryText]
        · simp
        · simp
      rw [e] at hf ⊢
      rw [ne, cut_app hp.2.2, ← hr]
      refine ih (fun p hp => hg p (List.mem_cons_of_mem _ hp)) f (setKV acc k v) ?_
      rw [hr]
      simp at hf
      omega

/-- The pairs are found when only the last piece may have no `=`. Missing: other pieces without `=`. -/
theorem C115_partial (l : List (Str × Str)) (last : Option Str)
    (hg : QGood (l.map (fun p => (p.1, some p.2)) ++ last.toList.map fun k => (k, none))) (k : Str) :
    (parseQuery (queryText (l.map (fun p => (p.1, some p.2)) ++ last.toList.map fun k => (k, none)))).lookup k =
      (pairs (l.map (fun p => (p.1, some p.2)) ++ last.toList.map fun k => (k, none))).reverse.lookup k := by
  have e : pairs (l.map (fun p => (p.1, some p.2)) ++ last.toList.map fun k => (k, none)) = l := by
    cases last <;> simp [pairs, List.filterMap_append, List.filterMap_map, Function.comp_def]
  rw [e, parseQuery, query_loop l last _ _ _ [] (Nat.lt_succ_self _)]
  · show (setAll [] l).lookup k = _
    rw [lookup_setAll]; simp
  · intro p hp
    have := hg (p.1, some p.2) (by
      rw [List.mem_append, List.mem_map]; exact .inl ⟨p, hp, rfl⟩)
    exact ⟨this.1, this.2.1, this.2.2 _ rfl⟩
  · intro k hk
    have := hg (k, none) (by subst hk; simp)
    exact this.1

example : parseQuery (lit "a=1&b=x=y&a=2&c") = [(lit "a", lit "2"), (lit "b", lit "x=y")] := by decide +kernel

/-! ### C116 -/

/-- A request as the client means it. A header is a name, spaces, and a value that does not start with a
space. -/
structure Req where
  method : Str
  path : Str
  query : Option Str
  headers : List (Str × Nat × Str)
  body : Str

def NoBreak (s : Str) : Prop := 13 ∉ s ∧ 10 ∉ s ∧ 0 ∉ s

def Req.Good (r : Req) : Prop :=
  (NoBreak r.method ∧ 32 ∉ r.method) ∧ (NoBreak r.path ∧ 32 ∉ r.path ∧ 63 ∉ r.path) ∧
  (∀ q, r.query = some q → NoBreak q ∧ 32 ∉ q) ∧
  ∀ h ∈ r.headers, NoBreak h.1 ∧ 58 ∉ h.1 ∧ NoBreak h.2.2 ∧ h.2.2.head? ≠ some 32

def headerLine (h : Str × Nat × Str) : Str := h.1 ++ 58 :: (List.replicate h.2.1 32 ++ h.2.2)

def Req.target (r : Req) : Str := r.path ++ match r.query with | none => [] | some q => 63 :: q

def Req.text (r : Req) : Str :=
  (r.method ++ 32 :: (r.target ++ lit " HTTP/1.1")) ++ crlf ++
    (r.headers.flatMap fun h => headerLine h ++ crlf) ++ crlf ++ r.body

/-- What the handler is to see of a request. -/
def Req.Seen (r : Req) (q : Request) : Prop :=
  q.method = r.method ∧ q.path = r.path ∧ q.body = r.body ∧
  q.query = (match r.query with | none => [] | some q => parseQuery q) ∧
  ∀ k, q.headers.lookup k = (r.headers.map fun h => (h.1, h.2.2)).reverse.lookup k

/-- However a request arrives, the handler sees what the client sent. -/
def C116_statement : Prop :=
  ∀ (r : Req) (pieces : List Str), r.Good → pieces.flatten = r.text → (∀ p ∈ pieces, p ≠ []) →
    ∃ q, (receive pieces).bind parseRequest = some q ∧ r.Seen q

def c116_req : Req := ⟨lit "POST", lit "/", none, [(lit "Content-Length", 1, lit "2")], lit "hi"⟩

/-- When the body comes in a second piece, it is not read. -/
theorem C116_witness :
    (receive [lit "POST / HTTP/1.1\r\nContent-Length: 2\r\n\r\n", lit "hi"]).bind parseRequest =
      some ⟨lit "POST", lit "/", [], [(lit "Content-Length", lit "2")], []⟩ := by decide +kernel

theorem C116_fails : ¬ C116_statement := fun h => by
  obtain ⟨q, h1, h2⟩ := h c116_req [lit "POST / HTTP/1.1\r\nContent-Length: 2\r\n\r\n", lit "hi"]
    ⟨⟨⟨by decide, by decide, by decide⟩, by decide⟩, ⟨⟨by decide, by decide, by decide⟩, by decide, by decide⟩,
      fun q h => (by cases h), fun x hx => (by
        rw [c116_req, List.mem_singleton] at hx
        subst hx
        exact ⟨⟨by decide, by decide, by decide⟩, by decide, ⟨by decide, by decide, by decide⟩, by decide⟩)⟩
    (by decide +kernel) (by decide)
  rw [C116_witness] at h1
  cases h1
  exact absurd h2.2.2.1 (by decide)

private theorem blank_skip {c : Byte} (h0 : c ≠ 0) (h1 : c ≠ 13) (s : Str) :
    cutBlank (c :: s) = (cutBlank s).map fun p => (c :: p.1, p.2) := by
  match s with
  | [] => rfl
  | [_] => rfl
  | [_, _] => rfl
  | d :: e :: f :: r => rw [cutBlank, if_neg h0, if_neg (fun h => h1 h.1)]

private theorem blank_line {l : Str} (h : NoBreak l) (s : Str) :
    cutBlank (l ++ s) = (cutBlank s).map fun p => (l ++ p.1, p.2) := by
  induction l with
  | nil => simp
  | cons c l ih =>
    obtain ⟨h1, h2, h3⟩ := h
    rw [List.mem_cons, not_or] at h1 h2 h3
    rw [List.cons_append, blank_skip (fun e => h3.1 e.symm) (fun e => h1.1 e.symm), ih ⟨h1.2, h2.2, h3.2⟩,
      Option.map_map]
    rfl

private theorem blank_next {s : Str} (h : s.head? ≠ some 13) :
    cutBlank (13 :: 10 :: s) = (cutBlank s).map fun p => (13 :: 10 :: p.1, p.2) := by
  have e : cutBlank (13 :: 10 :: s) = (cutBlank (10 :: s)).map fun p => (13 :: p.1, p.2) := by
    match s with
    | [] => rfl
    | [_] => rfl
    | e :: f :: r =>
      rw [cutBlank, if_neg (by decide), if_neg (fun hh => h (by rw [hh.2.2.1]; rfl))]
  rw [e, blank_skip (by decide) (by decide), Option.map_map]
  rfl

/-- The blank line after header lines. -/
private theorem blank_lines (l : Str) (ls : List Str) (hl : NoBreak l)
    (hls : ∀ x ∈ ls, x ≠ [] ∧ NoBreak x) (body : Str) :
    cutBlank (l ++ crlf ++ ls.flatMap (· ++ crlf) ++ crlf ++ body) =
      some (l ++ ls.flatMap (crlf ++ ·), body) := by
  induction ls generalizing l with
  | nil =>
    have e : l ++ crlf ++ [].flatMap (· ++ crlf) ++ crlf ++ body = l ++ (13 :: 10 :: 13 :: 10 :: body) := by
      simp [crlf]
    rw [e, blank_line hl, cutBlank, if_neg (by decide), if_pos (by decide)]
    rfl
  | cons x xs ih =>
    have hx := hls x (by simp)
    obtain ⟨c, x', rfl⟩ := List.exists_cons_of_ne_nil hx.1
    have e : l ++ crlf ++ ((c :: x') :: xs).flatMap (· ++ crlf) ++ crlf ++ body =
        l ++ (13 :: 10 :: ((c :: x') ++ crlf ++ xs.flatMap (· ++ crlf) ++ crlf ++ body)) := by
      simp [crlf]
    rw [e, blank_line hl, blank_next, ih (c :: x') hx.2 (fun y hy => hls y (List.mem_cons_of_mem _ hy))]
    · simp [crlf]
    · intro hh
      have : c = 13 := by simpa using hh
      exact hx.2.1 (by rw [this]; simp)

private theorem cut_line {l : Str} (h : NoBreak l) (s : Str) : cutLine (l ++ crlf ++ s) = some (l, s) := by
  induction l with
  | nil => rfl
  | cons c l ih =>
    obtain ⟨h1, h2, h3⟩ := h
    rw [List.mem_cons, not_or] at h1 h2 h3
    have := ih ⟨h1.2, h2.2, h3.2⟩
    cases hk : l ++ crlf ++ s with
    | nil => simp [crlf] at hk
    | cons d r =>
      rw [List.cons_append, List.cons_append, hk, cutLine, if_neg (fun e => h3.1 e.symm),
        if_neg (fun e => h1.1 e.1.symm), ← hk, this]
      rfl

private theorem drop_sp (n : Nat) {v : Str} (h : v.head? ≠ some 32) :
    (List.replicate n 32 ++ v).dropWhile (fun c : Byte => c == 32) = v := by
  induction n with
  | zero =>
    cases v with
    | nil => rfl
    | cons c v =>
      rw [List.replicate_zero, List.nil_append, List.dropWhile_cons_of_neg]
      rw [beq_iff_eq]
      exact fun e => h (by rw [e]; rfl)
  | succ n ih =>
    rw [List.replicate_succ, List.cons_append, List.dropWhile_cons_of_pos (by decide)]
    exact ih

private theorem header_nb {h : Str × Nat × Str} (hg : NoBreak h.1 ∧ 58 ∉ h.1 ∧ NoBreak h.2.2 ∧ h.2.2.head? ≠ some 32) :
    headerLine h ≠ [] ∧ NoBreak (headerLine h) := by
  obtain ⟨⟨a1, a2, a3⟩, -, ⟨b1, b2, b3⟩, -⟩ := hg
  have e : ∀ c : Byte, c ∈ headerLine h → c ∈ h.1 ∨ c = 58 ∨ c = 32 ∨ c ∈ h.2.2 := by
    intro c hc
    rw [headerLine, List.mem_append, List.mem_cons, List.mem_append, List.mem_replicate] at hc
    rcases hc with h | h | h | h
    · exact .inl h
    · exact .inr (.inl h)
    · exact .inr (.inr (.inl h.2))
    · exact .inr (.inr (.inr h))
  refine ⟨by simp [headerLine], fun hc => ?_, fun hc => ?_, fun hc => ?_⟩ <;>
    rcases e _ hc with h | h | h | h <;> first | contradiction | exact absurd h (by decide)

private theorem header_loop (hs : List (Str × Nat × Str))
    (hg : ∀ h ∈ hs, NoBreak h.1 ∧ 58 ∉ h.1 ∧ NoBreak h.2.2 ∧ h.2.2.head? ≠ some 32) (body : Str) (f : Nat)
    (acc : Params) (hf : (hs.flatMap fun h => headerLine h ++ crlf).length < f) :
    headerLoop f ((hs.flatMap fun h => headerLine h ++ crlf) ++ crlf ++ body)
      ((hs.flatMap fun h => headerLine h ++ crlf).length - 2) acc =
      some (setAll acc (hs.map fun h => (h.1, h.2.2))) := by
  induction hs generalizing f acc with
  | nil =>
    obtain ⟨f, rfl⟩ : ∃ g, f = g + 1 := ⟨f - 1, by omega⟩
    rw [headerLoop, if_pos (by rfl)]; rfl
  | cons h hs ih =>
    obtain ⟨f, rfl⟩ : ∃ g, f = g + 1 := ⟨f - 1, by omega⟩
    have hh := hg h (by simp)
    have hn := header_nb hh
    have hlen : 0 < (headerLine h).length := List.length_pos_iff.2 hn.1
    have e : ((h :: hs).flatMap fun h => headerLine h ++ crlf).length =
        (headerLine h).length + 2 + (hs.flatMap fun h => headerLine h ++ crlf).length := by
      simp [crlf]
      omega
    have e2 : ((h :: hs).flatMap fun h => headerLine h ++ crlf) ++ crlf ++ body =
        headerLine h ++ crlf ++ ((hs.flatMap fun h => headerLine h ++ crlf) ++ crlf ++ body) := by
      simp
    rw [e] at hf
    rw [headerLoop, e, if_neg (by omega), e2, cut_line hn.2]
    have e3 : cut colon (headerLine h) = some (h.1, List.replicate h.2.1 32 ++ h.2.2) := cut_app hh.2.1
    have e4 : (headerLine h).length + 2 + (hs.flatMap fun h => headerLine h ++ crlf).length - 2 -
        ((headerLine h).length + 2) = (hs.flatMap fun h => headerLine h ++ crlf).length - 2 := by omega
    dsimp only
    rw [e3, e4]
    dsimp only
    rw [drop_sp _ hh.2.2.2]
    exact ih (fun x hx => hg x (List.mem_cons_of_mem _ hx)) f _ (by omega)

private theorem flat_swap (ls : List Str) (l : Str) :
    (l ++ ls.flatMap (crlf ++ ·)).length + 2 = l.length + 2 + (ls.flatMap (· ++ crlf)).length := by
  induction ls generalizing l with
  | nil => simp [crlf]
  | cons x xs ih =>
    have := ih x
    simp [crlf] at this ⊢
    omega

private theorem target_ok {r : Req} (h : r.Good) : NoBreak r.target ∧ 32 ∉ r.target := by
  obtain ⟨-, ⟨⟨p1, p2, p3⟩, p4, -⟩, hq, -⟩ := h
  cases e : r.query with
  | none =>
    have e2 : r.target = r.path := by rw [Req.target, e]; simp
    rw [e2]
    exact ⟨⟨p1, p2, p3⟩, p4⟩
  | some q =>
    have e2 : r.target = r.path ++ 63 :: q := by rw [Req.target, e]
    obtain ⟨⟨q1, q2, q3⟩, q4⟩ := hq q e
    rw [e2]
    refine ⟨⟨fun h => ?_, fun h => ?_, fun h => ?_⟩, fun h => ?_⟩ <;>
      rw [List.mem_append, List.mem_cons] at h <;>
      rcases h with h | h | h <;> first | contradiction | exact absurd h (by decide)

/-- A request of at most 65535 bytes that arrives in one piece is parsed into what the client sent; a header
that occurs twice has its last value. Missing: requests that arrive in several pieces, and longer ones. -/
theorem C116_partial (r : Req) (hg : r.Good) (hl : r.text.length ≤ 65535) (rest : List Str) :
    ∃ q, (receive (r.text :: rest)).bind parseRequest = some q ∧ r.Seen q := by
  obtain ⟨ht1, ht2⟩ := target_ok hg
  obtain ⟨⟨hm, hm'⟩, ⟨-, -, hp⟩, hq, hh⟩ := hg
  have hlen : 13 ≤ r.text.length := by
    have a : (lit " HTTP/1.1").length = 9 := by decide
    simp [Req.text, crlf, a]
    omega
  have hne : r.text ≠ [] := fun e => by rw [e] at hlen; simp at hlen
  have e0 : receive (r.text :: rest) = some r.text := by
    rw [receive, if_neg hne, List.take_of_length_le hl]
  have ln : NoBreak (r.method ++ 32 :: (r.target ++ lit " HTTP/1.1")) := by
    obtain ⟨a1, a2, a3⟩ := hm
    obtain ⟨b1, b2, b3⟩ := ht1
    refine ⟨fun h => ?_, fun h => ?_, fun h => ?_⟩ <;>
      rw [List.mem_append, List.mem_cons, List.mem_append] at h <;>
      rcases h with h | h | h | h <;> first | contradiction | exact absurd h (by decide)
  have c1 : cut 32 r.text = some (r.method, r.target ++ lit " HTTP/1.1" ++ crlf ++
      (r.headers.flatMap fun h => headerLine h ++ crlf) ++ crlf ++ r.body) := by
    have : r.text = r.method ++ 32 :: (r.target ++ lit " HTTP/1.1" ++ crlf ++
      (r.headers.flatMap fun h => headerLine h ++ crlf) ++ crlf ++ r.body) := by simp [Req.text]
    rw [this, cut_app hm']
  have c2 : cut 32 (r.target ++ lit " HTTP/1.1" ++ crlf ++
      (r.headers.flatMap fun h => headerLine h ++ crlf) ++ crlf ++ r.body) =
      some (r.target, lit "HTTP/1.1" ++ crlf ++
      (r.headers.flatMap fun h => headerLine h ++ crlf) ++ crlf ++ r.body) := by
    have : r.target ++ lit " HTTP/1.1" ++ crlf ++
      (r.headers.flatMap fun h => headerLine h ++ crlf) ++ crlf ++ r.body =
      r.target ++ 32 :: (lit "HTTP/1.1" ++ crlf ++
      (r.headers.flatMap fun h => headerLine h ++ crlf) ++ crlf ++ r.body) := by
      have e : lit " HTTP/1.1" = 32 :: lit "HTTP/1.1" := by decide
      rw [e]; simp
    rw [this, cut_app ht2]
  have fm : (r.headers.map headerLine).flatMap (· ++ crlf) =
      r.headers.flatMap fun h => headerLine h ++ crlf := by
    rw [List.flatMap_map]
  have c3 : cutBlank r.text = some (r.method ++ 32 :: (r.target ++ lit " HTTP/1.1") ++
      (r.headers.map headerLine).flatMap (crlf ++ ·), r.body) := by
    rw [Req.text, ← fm]
    refine blank_lines _ _ ln ?_ _
    intro x hx
    obtain ⟨h, hhm, rfl⟩ := List.mem_map.1 hx
    exact header_nb (hh h hhm)
  have c4 : cutLine r.text = some (r.method ++ 32 :: (r.target ++ lit " HTTP/1.1"),
      (r.headers.flatMap fun h => headerLine h ++ crlf) ++ crlf ++ r.body) := by
    have : r.text = r.method ++ 32 :: (r.target ++ lit " HTTP/1.1") ++ crlf ++
      ((r.headers.flatMap fun h => headerLine h ++ crlf) ++ crlf ++ r.body) := by simp [Req.text]
    rw [this, cut_line ln]
  have c5 : cut 63 r.target = r.query.map fun q => (r.path, q) := by
    cases e : r.query with
    | none => rw [Req.target, e]; dsimp only; rw [List.append_nil, cut_none hp]; rfl
    | some q => rw [Req.target, e]; exact cut_app hp
  have hn := flat_swap (r.headers.map headerLine) (r.method ++ 32 :: (r.target ++ lit " HTTP/1.1"))
  rw [fm] at hn
  rw [e0, Option.bind_some, parseRequest, if_neg (by omega), c1]
  dsimp only
  rw [c2]
  dsimp only
  rw [c3, c4, c5]
  dsimp only
  generalize hA : r.method ++ 32 :: (r.target ++ lit " HTTP/1.1") = A at *
  generalize hB : (r.headers.map headerLine).flatMap (crlf ++ ·) = B at *
  have e6 : (A ++ B).length - (A.length + 2) =
      (r.headers.flatMap fun h => headerLine h ++ crlf).length - 2 := by
    omega
  rw [e6, header_loop r.headers hh r.body _ [] (by
    omega)]
  cases e : r.query with
  | none =>
    refine ⟨_, rfl, rfl, ?_, rfl, by rw [e]; rfl, fun k => ?_⟩
    · show r.target = r.path
      rw [Req.target, e]; dsimp only; rw [List.append_nil]
    show (setAll [] _).lookup k = _
    rw [lookup_setAll]; simp
  | some q =>
    refine ⟨_, rfl, rfl, rfl, rfl, by rw [e]; rfl, fun k => ?_⟩
    show (setAll [] _).lookup k = _
    rw [lookup_setAll]; simp

example : parseRequest (lit "GET /a?x=1 HTTP/1.1\r\nHost: h\r\nA:b:c\r\n\r\nbody") =
    some ⟨lit "GET", lit "/a", [(lit "x", lit "1")], [(lit "Host", lit "h"), (lit "A", lit "b:c")], lit "body"⟩ := by
  decide +kernel

/-- A header line without a colon is skipped. -/
theorem C116_no_colon {line : Str} (h : NoBreak line) (hc : 58 ∉ line) (rest : Str) (f n : Nat) (hn : n ≠ 0)
    (ps : Params) :
    headerLoop (f + 1) (line ++ crlf ++ rest) n ps = headerLoop f rest (n - (line.length + 2)) ps := by
  rw [headerLoop, if_neg hn, cut_line h]
  dsimp only
  rw [show cut colon line = none from cut_none hc]

example : parseRequest (lit "GET / HTTP/1.1\r\nnonsense\r\nA: b\r\n\r\n") =
    some ⟨lit "GET", lit "/", [], [(lit "A", lit "b")], []⟩ := by decide +kernel

/-- A redirect is sent for the statuses 300 to 399, and only with a target. -/
theorem C114_redirect (r : Response) :
    isRedirect r = true ↔ (∃ k : Nat, k < 100 ∧ r.status = 300 + k) ∧ r.body ≠ [] := by
  unfold isRedirect
  rw [decide_eq_true_iff, List.length_pos_iff]
  constructor
  · rintro ⟨h1, h2, h3⟩
    exact ⟨⟨(r.status - 300).toNat, by omega, by omega⟩, h3⟩
  · rintro ⟨⟨k, h1, h2⟩, h3⟩
    exact ⟨by omega, by omega, h3⟩

/-- The reason phrases of RFC 9110 and RFC 6585 for the statuses the server names. -/
def reasons : List (Int × Str) :=
  [(200, lit "OK"), (201, lit "Created"), (204, lit "No Content"), (301, lit "Moved Permanently"),
   (302, lit "Found"), (303, lit "See Other"), (304, lit "Not Modified"), (307, lit "Temporary Redirect"),
   (308, lit "Permanent Redirect"), (400, lit "Bad Request"), (401, lit "Unauthorized"), (403, lit "Forbidden"),
   (404, lit "Not Found"), (405, lit "Method Not Allowed"), (409, lit "Conflict"), (410, lit "Gone"),
   (422, lit "Unprocessable Entity"), (429, lit "Too Many Requests"), (500, lit "Internal Server Error"),
   (501, lit "Not Implemented"), (502, lit "Bad Gateway"), (503, lit "Service Unavailable")]

theorem C114_reason : (∀ p ∈ reasons, reason p.1 = p.2) ∧
    ∀ s : Int, s ∉ reasons.map Prod.fst → reason s = lit "Unknown" := by
  refine ⟨by decide +kernel, fun s h => ?_⟩
  simp only [reasons, List.map_cons, List.map_nil, List.mem_cons, List.not_mem_nil, not_or] at h
  unfold reason
  simp only [h, if_false]

end Verif.Props
