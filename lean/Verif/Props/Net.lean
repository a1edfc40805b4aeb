import Verif.Model.Net

/-!
# Sockets and time: ports, time limits, transfers, handles and years (C254–C257)
-/

namespace Verif.Props
open Verif Verif.Str Verif.Net

namespace Nt

/-! ### Transfers -/

/-- A program that calls `net.send` again for what was not taken: what goes out, for what the system does at each call. -/
def sendAll (data : Str) : List Send → Str
  | [] => []
  | o :: r =>
    match send o with
    | .ok n => data.take n ++ sendAll (data.drop n) r
    | .error => sendAll data r
    | .killed => []

/-- The number of bytes the system takes in all. -/
def total : List Send → Nat
  | [] => 0
  | .took n :: r => n + total r
  | _ :: r => total r

theorem sendAll_eq (l : List Send) (hl : ∀ o ∈ l, o ≠ .closed) : ∀ data : Str, sendAll data l = data.take (total l) := by
  induction l with
  | nil => intro d; simp [sendAll, total]
  | cons o r ih =>
    intro d
    have ihr := ih (fun o ho => hl o (List.mem_cons_of_mem _ ho))
    cases o with
    | took n => simp only [sendAll, send, total, ihr, List.take_add]
    | error => simp only [sendAll, send, total, ihr]
    | closed => exact absurd rfl (hl _ List.mem_cons_self)

/-! ### Handles -/

theorem at_setFd (t : List (Option Nat)) (n : Nat) (v : Option Nat) (m : Nat) : at' (setFd t n v) m = if m = n then v else at' t m := by
  induction t generalizing n m with
  | nil =>
    induction n generalizing m with
    | zero => cases m <;> simp [setFd, at']
    | succ n ih =>
      cases m with
      | zero => simp [setFd, at']
      | succ m =>
        have := ih m
        simp only [at'] at this ⊢
        simpa [setFd] using this
  | cons a r ih =>
    cases n with
    | zero => cases m <;> simp [setFd, at']
    | succ n =>
      cases m with
      | zero => simp [setFd, at']
      | succ m =>
        have := ih n m
        simp only [at'] at this ⊢
        simpa [setFd] using this

theorem at_free (t : List (Option Nat)) : at' t (freeFd t) = none := by
  induction t with
  | nil => rfl
  | cons a r ih => cases a with
    | none => rfl
    | some a => simpa [at', freeFd] using ih

/-- A socket is open if some descriptor leads to it. -/
def Open (s : St) (k : Nat) : Prop := ∃ f, at' s.table f = some k

structure Inv (s : St) : Prop where
  low : ∀ f k, at' s.table f = some k → k < s.fresh
  inj : ∀ f g k, at' s.table f = some k → at' s.table g = some k → f = g
  var : ∀ x h, s.var x = some h → h.socket < s.fresh ∧ ∀ f, at' s.table f = some h.socket → f = h.fd

theorem inv_initial : Inv initial :=
  ⟨fun f k h => by simp [initial, at'] at h, fun f g k h => by simp [initial, at'] at h, fun x h hx => by simp [initial] at hx⟩

theorem inv_step (s : St) (o : Op) (hi : Inv s) : Inv (step s o).1 := by
  cases o with
  | dial x =>
    refine ⟨?_, ?_, ?_⟩
    · intro f k h
      change at' (setFd s.table (freeFd s.table) (some s.fresh)) f = some k at h
      change k < s.fresh + 1
      rw [at_setFd] at h
      split at h
      · cases h; omega
      · have := hi.low f k h; omega
    · intro f g k hf hg
      change at' (setFd s.table (freeFd s.table) (some s.fresh)) f = some k at hf
      change at' (setFd s.table (freeFd s.table) (some s.fresh)) g = some k at hg
      rw [at_setFd] at hf hg
      split at hf <;> split at hg
      · omega
      · cases hf; have := hi.low g _ hg; omega
      · cases hg; have := hi.low f _ hf; omega
      · exact hi.inj f g k hf hg
    · intro y h hy
      change (if y = x then some (⟨freeFd s.table, s.fresh⟩ : Handle) else s.var y) = some h at hy
      change h.socket < s.fresh + 1 ∧ ∀ f, at' (setFd s.table (freeFd s.table) (some s.fresh)) f = some h.socket → f = h.fd
      split at hy
      · cases hy
        refine ⟨Nat.lt_succ_self _, fun f hf => ?_⟩
        rw [at_setFd] at hf
        split at hf
        · assumption
        · have := hi.low f _ hf; exact absurd this (Nat.lt_irrefl _)
      · have := hi.var y h hy
        refine ⟨by omega, fun f hf => ?_⟩
        rw [at_setFd] at hf
        split at hf
        · have e := Option.some.inj hf; omega
        · exact this.2 f hf
  | copy x y =>
    refine ⟨hi.low, hi.inj, fun z h hz => ?_⟩
    change (if z = y then s.var x else s.var z) = some h at hz
    split at hz
    · exact hi.var x h hz
    · exact hi.var z h hz
  | send x =>
    have : (step s (.send x)).1 = s := by
      simp only [step]; split <;> rfl
    rw [this]; exact hi
  | close x =>
    cases hx : s.var x with
    | none =>
      have : (step s (.close x)).1 = s := by simp only [step, hx]
      rw [this]; exact hi
    | some h =>
      have : (step s (.close x)).1 = { s with table := setFd s.table h.fd none } := by simp only [step, hx]
      rw [this]
      have sub : ∀ f k, at' (setFd s.table h.fd none) f = some k → at' s.table f = some k := by
        intro f k hk
        rw [at_setFd] at hk
        split at hk
        · cases hk
        · exact hk
      exact ⟨fun f k hk => hi.low f k (sub f k hk), fun f g k hf hg => hi.inj f g k (sub f k hf) (sub g k hg),
        fun y h' hy => ⟨(hi.var y h' hy).1, fun f hf => (hi.var y h' hy).2 f (sub f _ hf)⟩⟩

theorem inv_run (l : List Op) : ∀ s, Inv s → Inv (runOps s l) := by
  induction l with
  | nil => exact fun s h => h
  | cons o r ih => exact fun s h => ih _ (inv_step s o h)

theorem open_at {s : St} (hi : Inv s) {x : Nat} {h : Handle} (hx : s.var x = some h) (ho : Open s h.socket) : at' s.table h.fd = some h.socket := by
  obtain ⟨f, hf⟩ := ho
  rw [← (hi.var x h hx).2 f hf]; exact hf

/-- Years follow one another after 365 or 366 days; the time 0 is in 1970. -/
structure Calendar (c : Int → Int) : Prop where
  zero : c 0 = 1970
  up : ∀ t n : Int, 0 ≤ n → c t + n ≤ c (t + n * (366 * 86400)) ∧ c (t + n * (365 * 86400)) ≤ c t + n
  mono : ∀ a b, a ≤ b → c a ≤ c b

end Nt
open Nt

/-! ### C254 -/

/-- A port, a time limit and a host name mean what the program gives. -/
def C254_statement : Prop :=
  (∀ p : BitVec 64, listenPort p = p.toNat)
  ∧ (∀ ms : Int, 0 < ms → setLimit (timeval ms) = some (some (ms * 1000)))
  ∧ (∀ a b : Int, a < 0 → b < 0 → setLimit (timeval a) = setLimit (timeval b))
  ∧ (∀ h : Str, hostText h = h)

/-- Listening at 65616 is listening at 80; −1000 is "at once", −1001 leaves the limit as it was; and a name is another name with a zero byte. -/
theorem C254_witness : listenPort 65616 = 80 ∧ listenPort (-1) = 65535 ∧ setLimit (timeval (-1000)) = some (some 0)
    ∧ setLimit (timeval (-1001)) = none ∧ hostText (lit "a.b" ++ 0 :: lit ".c") = lit "a.b" := by
  refine ⟨by decide +kernel, by decide +kernel, by decide +kernel, by decide +kernel, by decide +kernel⟩

theorem C254_fails : ¬ C254_statement := by
  intro h
  exact absurd (h.1 65616) (by decide +kernel)

theorem C254_limits_fail : ¬ ∀ a b : Int, a < 0 → b < 0 → setLimit (timeval a) = setLimit (timeval b) := by
  intro h
  exact absurd (h (-1000) (-1001) (by decide) (by decide)) (by decide +kernel)

/-- What holds: ports below 65536 are those given, and any other is taken modulo 65536; positive limits are exact, and 0 is no limit; every
negative limit is "at once" or is ignored, the first exactly for whole seconds; and names of at most 255 bytes without a zero byte are those
given. Missing: that other ports, limits and names are refused. -/
theorem C254_partial :
    (∀ p : BitVec 64, listenPort p = p.toNat % 65536)
    ∧ (∀ p : BitVec 64, p.toNat < 65536 → listenPort p = p.toNat)
    ∧ (∀ ms : Int, 0 < ms → setLimit (timeval ms) = some (some (ms * 1000)))
    ∧ setLimit (timeval 0) = some none
    ∧ (∀ ms : Int, ms < 0 → setLimit (timeval ms) = if ms % 1000 = 0 then some (some 0) else none)
    ∧ (∀ h : Str, h.length ≤ 255 → (0 : Byte) ∉ h → hostText h = h) := by
  have h1 : ∀ p : BitVec 64, listenPort p = p.toNat % 65536 := fun p => by simp [listenPort, BitVec.toNat_setWidth]
  refine ⟨h1, fun p hp => by rw [h1]; omega, ?_, by decide +kernel, ?_, ?_⟩
  · intro ms h
    have e : ms.tdiv 1000 * 1000 + ms.tmod 1000 = ms := by
      have := Int.mul_tdiv_add_tmod ms 1000; omega
    have a := Int.tmod_nonneg 1000 (by omega : 0 ≤ ms)
    have b : ms.tmod 1000 < 1000 := Int.tmod_lt_of_pos ms (by decide)
    have c : 0 ≤ ms.tdiv 1000 := Int.tdiv_nonneg (by omega) (by decide)
    have t1 : (timeval ms).1 = ms.tdiv 1000 := rfl
    have t2 : (timeval ms).2 = ms.tmod 1000 * 1000 := rfl
    unfold setLimit
    rw [if_neg (by omega), if_neg (by omega), if_neg (by omega)]
    congr 2; omega
  · intro ms h
    have e : ms.tdiv 1000 * 1000 + ms.tmod 1000 = ms := by
      have := Int.mul_tdiv_add_tmod ms 1000; omega
    have a : ms.tmod 1000 ≤ 0 := by
      have := Int.tmod_nonneg 1000 (by omega : 0 ≤ -ms)
      rw [Int.neg_tmod] at this; omega
    have b : -1000 < ms.tmod 1000 := by
      have : (-ms).tmod 1000 < 1000 := Int.tmod_lt_of_pos (-ms) (by decide)
      rw [Int.neg_tmod] at this; omega
    have t1 : (timeval ms).1 = ms.tdiv 1000 := rfl
    have t2 : (timeval ms).2 = ms.tmod 1000 * 1000 := rfl
    unfold setLimit
    by_cases hz : ms % 1000 = 0
    · rw [if_pos hz, if_neg (by omega), if_pos (by omega)]
    · rw [if_neg hz, if_pos (by omega)]
  · intro h hl hz
    have ht : h.take 255 = h := List.take_of_length_le hl
    unfold hostText
    rw [ht]
    have : ∀ l : Str, (0 : Byte) ∉ l → l.takeWhile (fun c => decide (c ≠ 0)) = l := by
      intro l
      induction l with
      | nil => intro _; rfl
      | cons c r ih =>
        intro hn
        have hc : c ≠ 0 := fun e => hn (e ▸ List.mem_cons_self)
        rw [List.takeWhile_cons_of_pos (by simpa using hc), ih (fun m => hn (List.mem_cons_of_mem _ m))]
    exact this h hz

example : listenPort 8080 = 8080 := by decide +kernel
example : setLimit (timeval 1500) = some (some 1500000) := by decide +kernel

/-! ### C255 -/

/-- A transfer either moves everything or is an error, and the end of the data is no error. -/
def C255_statement : Prop :=
  (∀ (data : Str) (o : Send), (∀ n, o = .took n → n ≤ data.length) → send o = .ok data.length ∨ send o = .error)
  ∧ (∀ fd max : Int, ∀ r : Recv, (∀ b, r = .data b → b ≠ []) → ((recv fd max r).2 = true ↔ r = .error ∨ fd < 0))

/-- Three of ten bytes sent is no error; a connection closed by the other side ends the program; the end of the data is an error, and a
read from no socket is none. -/
theorem C255_witness : send (.took 3) = .ok 3 ∧ send .closed = .killed ∧ recv 3 10 .eof = ([], true) ∧ recv (-1) 10 .error = ([], false) := by
  refine ⟨rfl, rfl, by decide, by decide⟩

theorem C255_fails : ¬ C255_statement := by
  intro h
  have := h.1 (lit "0123456789") (.took 3) (by intro n e; cases e; decide)
  rcases this with e | e <;> exact absurd e (by decide)

theorem C255_killed_fails : ¬ ∀ o : Send, send o ≠ .killed := fun h => h .closed rfl

theorem C255_recv_fails : ¬ ∀ fd max : Int, ∀ r : Recv, (∀ b, r = .data b → b ≠ []) → ((recv fd max r).2 = true ↔ r = .error ∨ fd < 0) := by
  intro h
  have := (h 3 10 .eof (by intro b e; cases e)).1 (by decide)
  rcases this with e | e
  · cases e
  · exact absurd e (by decide)

/-- What holds: the number returned is the number sent, so that a program that sends the rest again sends its data in order and completely as
soon as the system has taken that many bytes (while the other side does not close); data that arrive are returned whole and without error, if
the socket is one and the limit is positive, at most 1 MiB are asked for; and the end of the data and errors are the same.
Missing: one call for everything, errors instead of SIGPIPE, and telling the end from errors. -/
theorem C255_partial :
    (∀ (data : Str) (l : List Send), (∀ o ∈ l, o ≠ .closed) →
      sendAll data l <+: data ∧ (data.length ≤ total l → sendAll data l = data))
    ∧ (∀ fd max : Int, ∀ b : Str, 0 ≤ fd → 0 < max → b ≠ [] → recv fd max (.data b) = (b, false))
    ∧ (∀ fd max : Int, ∀ n, recvSize fd max = some n → 0 < n ∧ n ≤ 1048576 ∧ (n : Int) ≤ max)
    ∧ (∀ fd max : Int, 0 ≤ fd → recv fd max .eof = ([], true))
    ∧ (∀ fd max : Int, recv fd max .eof = recv fd max .error)
    ∧ (∀ fd max : Int, ∀ r : Recv, fd < 0 → recv fd max r = ([], false)) := by
  refine ⟨?_, ?_, ?_, ?_, ?_, ?_⟩
  · intro data l hl
    rw [sendAll_eq l hl]
    exact ⟨List.take_prefix _ _, fun h => List.take_of_length_le h⟩
  · intro fd max b hf hm hb
    have e : recvSize fd max = some (min max.toNat maxRecv) := if_neg (by omega)
    have hl : (b.length == 0) = false := by simpa using hb
    simp only [recv, e, hl, Bool.false_and]
  · intro fd max n h
    unfold recvSize at h
    split at h
    · cases h
    · have e := Option.some.inj h
      simp only [maxRecv] at e
      omega
  · intro fd max hf
    simp only [recv]
    cases recvSize fd max <;> simp [hf]
  · intro fd max
    simp only [recv]
  · intro fd max r hf
    have e : recvSize fd max = none := if_pos (Or.inl hf)
    simp only [recv, e]
    have : ¬ 0 ≤ fd := by omega
    simp [this]

example : sendAll (lit "hello") [.took 2, .error, .took 3] = lit "hello" := by decide +kernel

/-! ### C256 -/

/-- Whatever a program does, sending over a handle uses the socket the handle was made for, or is an error. -/
def C256_statement : Prop :=
  ∀ (l : List Op) (x : Nat) (h : Handle), (runOps initial l).var x = some h →
    (step (runOps initial l) (.send x)).2 = some h.socket ∨ (step (runOps initial l) (.send x)).2 = none

/-- A connection is closed, another made, and sending over the first goes to the second; closing the first again closes the second. -/
theorem C256_witness :
    (step (runOps initial [.dial 0, .close 0, .dial 1]) (.send 0)).2 = some 1
    ∧ ((runOps initial [.dial 0, .close 0, .dial 1]).var 0).map (·.socket) = some 0
    ∧ (step (runOps initial [.dial 0, .close 0, .dial 1, .close 0]) (.send 1)).2 = none := by
  refine ⟨by decide, by decide, by decide⟩

theorem C256_fails : ¬ C256_statement := by
  intro h
  have := h [.dial 0, .close 0, .dial 1] 0 ⟨0, 0⟩ rfl
  rcases this with e | e <;> exact absurd e (by decide)

/-- What holds, after any operations: sending over a handle whose socket is open uses that socket, and closing it closes that socket and no
other. Missing: handles whose socket has been closed are not recognised. -/
theorem C256_partial (l : List Op) (x : Nat) (h : Handle) (hx : (runOps initial l).var x = some h) (ho : Open (runOps initial l) h.socket) :
    (step (runOps initial l) (.send x)).2 = some h.socket
    ∧ (step (runOps initial l) (.close x)).2 = some h.socket
    ∧ ∀ k, Open (step (runOps initial l) (.close x)).1 k ↔ Open (runOps initial l) k ∧ k ≠ h.socket := by
  have hi : Inv (runOps initial l) := inv_run l initial inv_initial
  have ha := open_at hi hx ho
  refine ⟨by simp only [step, hx]; exact ha, by simp only [step, hx]; exact ha, fun k => ?_⟩
  have e : (step (runOps initial l) (.close x)).1.table = setFd (runOps initial l).table h.fd none := by simp only [step, hx]
  constructor
  · rintro ⟨f, hf⟩
    rw [e, at_setFd] at hf
    split at hf
    · cases hf
    · rename_i hne
      refine ⟨⟨f, hf⟩, fun ek => ?_⟩
      rw [ek] at hf
      exact hne ((hi.var x h hx).2 f hf)
  · rintro ⟨⟨f, hf⟩, hk⟩
    refine ⟨f, ?_⟩
    rw [e, at_setFd, if_neg ?_]
    · exact hf
    · intro e2
      rw [e2, ha] at hf
      exact hk (Option.some.inj hf).symm

/-- A connection that is made gets a descriptor of its own: everything open stays open, and the new one is open. -/
theorem C256_dial_partial (l : List Op) (x : Nat) :
    let s := runOps initial l
    (∀ k, Open s k → Open (step s (.dial x)).1 k) ∧ ∃ h, (step s (.dial x)).1.var x = some h ∧ Open (step s (.dial x)).1 h.socket ∧ ¬ Open s h.socket := by
  intro s
  have hi : Inv s := inv_run l initial inv_initial
  refine ⟨fun k ⟨f, hf⟩ => ⟨f, ?_⟩, ⟨freeFd s.table, s.fresh⟩, if_pos rfl, ⟨freeFd s.table, ?_⟩, fun ⟨f, hf⟩ => ?_⟩
  · change at' (setFd s.table (freeFd s.table) (some s.fresh)) f = some k
    rw [at_setFd, if_neg ?_]
    · exact hf
    · intro e; rw [e, at_free] at hf; cases hf
  · change at' (setFd s.table (freeFd s.table) (some s.fresh)) _ = _
    rw [at_setFd, if_pos rfl]
  · exact absurd (hi.low f _ hf) (Nat.lt_irrefl _)

example : Open (runOps initial [.dial 0, .copy 0 1]) 0 := ⟨0, by decide⟩

/-! ### C257 -/

/-- The year of every time can be asked for, and every difference of ticks. -/
def C257_statement : Prop :=
  (∀ c, Calendar c → ∀ ts : Int, -9223372036854775808 ≤ ts → ts ≤ 9223372036854775807 → year c ts = some (c ts))
  ∧ (∀ now start : Int, 0 ≤ now → now ≤ 9223372036854775807 → -9223372036854775808 ≤ start → start ≤ 9223372036854775807 → (elapsed now start).isSome)

/-- For the last second of 64 bits no calendar has a year that fits; `localtime` gives a null pointer. -/
theorem C257_witness (c : Int → Int) (hc : Calendar c) : tmYear c 9223372036854775807 = none ∧ year c 9223372036854775807 = none := by
  have h := (hc.up 0 290000000000 (by decide)).1
  have h2 := hc.mono (0 + 290000000000 * (366 * 86400)) 9223372036854775807 (by decide)
  rw [hc.zero] at h
  have : tmYear c 9223372036854775807 = none := if_neg (by omega)
  exact ⟨this, by simp only [year, this]⟩

theorem C257_elapsed_fails : ¬ ∀ now start : Int, 0 ≤ now → now ≤ 9223372036854775807 → -9223372036854775808 ≤ start →
    start ≤ 9223372036854775807 → (elapsed now start).isSome := by
  intro h
  exact absurd (h 1 (-9223372036854775808) (by decide) (by decide) (by decide) (by decide)) (by decide)

theorem C257_fails : ¬ C257_statement := fun h => C257_elapsed_fails h.2

/-- What holds: within 67 721 000 000 000 000 seconds of 1970 (more than 2000 million years) nothing fails and the year is the calendar's; a
year is wrong or missing exactly if it is below −2147481748 or above 2147483647, though `tm_year` reaches 1900 years further; and the ticks
differ in whole milliseconds, rounded towards zero, for every start that is not negative. Missing: other times. -/
theorem C257_partial :
    (∀ c, Calendar c → ∀ ts : Int, -67721000000000000 ≤ ts → ts ≤ 67721000000000000 → year c ts = some (c ts))
    ∧ (∀ c : Int → Int, ∀ ts, year c ts = some (c ts) ↔ -2147481748 ≤ c ts ∧ c ts ≤ 2147483647)
    ∧ (∀ c : Int → Int, ∀ ts y, year c ts = some y → y = c ts)
    ∧ (∀ c : Int → Int, ∀ ts, tmYear c ts = none ↔ c ts < -2147481748 ∨ 2147485547 < c ts)
    ∧ (∀ now start : Int, 0 ≤ now → now ≤ 9223372036854775807 → 0 ≤ start → start ≤ 9223372036854775807 →
        elapsed now start = some ((now - start).tdiv 1000000)) := by
  have hy : ∀ c : Int → Int, ∀ ts, -2147481748 ≤ c ts ∧ c ts ≤ 2147483647 → year c ts = some (c ts) := by
    intro c ts h
    have e : tmYear c ts = some (c ts - 1900) := if_pos (by omega)
    simp only [year, e]
    rw [if_pos (by omega)]; congr 1; omega
  have hn : ∀ c : Int → Int, ∀ ts, ¬ (-2147481748 ≤ c ts ∧ c ts ≤ 2147483647) → year c ts = none := by
    intro c ts h
    by_cases ht : -2147483648 ≤ c ts - 1900 ∧ c ts - 1900 ≤ 2147483647
    · have e : tmYear c ts = some (c ts - 1900) := if_pos ht
      simp only [year, e]
      rw [if_neg (by omega)]
    · have e : tmYear c ts = none := if_neg ht
      simp only [year, e]
  refine ⟨?_, ?_, ?_, ?_, ?_⟩
  · intro c hc ts h1 h2
    refine hy c ts ⟨?_, ?_⟩
    · have a := (hc.up (-(2147440000 * (365 * 86400))) 2147440000 (by decide)).2
      have e : -(2147440000 * (365 * 86400)) + 2147440000 * (365 * 86400) = (0 : Int) := by decide
      rw [e, hc.zero] at a
      have b := hc.mono (-(2147440000 * (365 * 86400))) ts (by omega)
      omega
    · have a := (hc.up 0 2147440000 (by decide)).2
      rw [hc.zero] at a
      have b := hc.mono ts (0 + 2147440000 * (365 * 86400)) (by omega)
      omega
  · intro c ts
    constructor
    · intro h
      apply Classical.byContradiction
      intro hh
      rw [hn c ts hh] at h; cases h
    · exact hy c ts
  · intro c ts y h
    by_cases hh : -2147481748 ≤ c ts ∧ c ts ≤ 2147483647
    · rw [hy c ts hh] at h; exact (Option.some.inj h).symm
    · rw [hn c ts hh] at h; cases h
  · intro c ts
    unfold tmYear
    split
    · constructor
      · intro h; cases h
      · intro h; omega
    · constructor
      · intro _; omega
      · intro _; rfl
  · intro now start h1 h2 h3 h4
    exact if_pos (by omega)

/-- There are such calendars, for example that of the mean year. -/
theorem Nt.meanYear : Calendar (fun t => 1970 + t / 31556952) where
  zero := by decide
  up := fun t n hn => by
    constructor
    · have : (t + n * 31556952) / 31556952 = t / 31556952 + n := by omega
      have := Int.ediv_le_ediv (a := t + n * 31556952) (b := t + n * (366 * 86400)) (c := 31556952) (by decide) (by omega)
      show 1970 + t / 31556952 + n ≤ 1970 + (t + n * (366 * 86400)) / 31556952
      omega
    · have : (t + n * 31556952) / 31556952 = t / 31556952 + n := by omega
      have := Int.ediv_le_ediv (a := t + n * (365 * 86400)) (b := t + n * 31556952) (c := 31556952) (by decide) (by omega)
      show 1970 + (t + n * (365 * 86400)) / 31556952 ≤ 1970 + t / 31556952 + n
      omega
  mono := fun a b h => by
    have := Int.ediv_le_ediv (a := a) (b := b) (c := 31556952) (by decide) h
    show 1970 + a / 31556952 ≤ 1970 + b / 31556952
    omega

theorem C257_year_fails : ¬ ∀ c, Calendar c → ∀ ts : Int, -9223372036854775808 ≤ ts → ts ≤ 9223372036854775807 → year c ts = some (c ts) := by
  intro h
  have := h _ Nt.meanYear 9223372036854775807 (by decide) (by decide)
  rw [(C257_witness _ Nt.meanYear).2] at this
  cases this

end Verif.Props
