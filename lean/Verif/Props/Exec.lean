import Verif.Model.Exec

/-!
# C243 and C244: running programs and the environment
-/

namespace Verif.Props

open Verif.Exec

namespace Ex

/-- All that a stream brings before its end. -/
def total : List Rd → List Byte
  | [] => []
  | .data b :: r => b ++ total r
  | _ :: _ => []

/-- What `read` gave for the output in each round. -/
def outs (rs : List Round) : List Rd := rs.filterMap fun | .ready o _ => o | .fails => none
def errs (rs : List Round) : List Rd := rs.filterMap fun | .ready _ e => e | .fails => none

/-- Neither `select` nor `read` fails. -/
def Smooth (rs : List Round) : Prop := Round.fails ∉ rs ∧ Rd.error ∉ outs rs ∧ Rd.error ∉ errs rs

/-- The number for the end of a program, as a shell gives it. -/
def codeOf : Status → Nat
  | .exited n => n
  | .signalled n => 128 + n

def rest (s : Stream) (r : List Rd) : List Byte := if s.done then s.kept else s.kept ++ total r

theorem take_data (limit : Nat) (s : Stream) (b : List Byte) :
    (s.kept.length + b.length > limit ∧ take limit s (.data b) = .tooMuch) ∨
    (s.kept.length + b.length ≤ limit ∧ (s.kept.length ≤ s.cap →
      ∃ c, s.kept.length + b.length ≤ c ∧ take limit s (.data b) = .more { s with kept := s.kept ++ b, cap := c })) := by
  by_cases h : s.kept.length + b.length > limit
  · exact .inl ⟨h, by simp only [take]; rw [if_pos h]⟩
  · refine .inr ⟨by omega, fun hc => ⟨if s.kept.length + b.length > s.cap then s.cap * 2 + b.length else s.cap, ?_, ?_⟩⟩
    · by_cases h2 : s.kept.length + b.length > s.cap
      · rw [if_pos h2]; omega
      · rw [if_neg h2]; omega
    · simp only [take]
      rw [if_neg h, if_pos]
      by_cases h2 : s.kept.length + b.length > s.cap
      · rw [if_pos h2]; omega
      · rw [if_neg h2]; omega

/-- All that one round does to a stream. -/
theorem offer_cases {limit : Nat} {s : Stream} {r : Option Rd} {g : Got} (hc : s.kept.length ≤ s.cap) (hm : s.kept.length ≤ limit)
    (ho : offer limit s r = g) :
    g = .tooMuch ∨ ∃ s', g = .more s' ∧ s'.kept.length ≤ s'.cap ∧ s'.kept.length ≤ limit := by
  subst ho
  unfold offer
  by_cases hd : s.done = true
  · rw [if_pos hd]; exact .inr ⟨s, rfl, hc, hm⟩
  · rw [if_neg hd]
    cases r with
    | none => exact .inr ⟨s, rfl, hc, hm⟩
    | some r =>
      cases r with
      | eof => exact .inr ⟨_, rfl, hc, hm⟩
      | error => exact .inr ⟨_, rfl, hc, hm⟩
      | data b =>
        rcases take_data limit s b with ⟨_, h⟩ | ⟨h1, h⟩
        · exact .inl h
        · obtain ⟨c, hcc, h⟩ := h hc
          exact .inr ⟨_, h, by simpa using hcc, by simpa using h1⟩

/-- The sizes that hold all the time. -/
def Fits (limit : Nat) (s : Stream) : Prop := s.kept.length ≤ s.cap ∧ s.kept.length ≤ limit

theorem fits_empty (limit : Nat) : Fits limit {} := ⟨Nat.zero_le _, Nat.zero_le _⟩

theorem offer_fits {limit : Nat} {s s' : Stream} {r : Option Rd} (h : Fits limit s) (ho : offer limit s r = .more s') : Fits limit s' := by
  rcases offer_cases h.1 h.2 ho with h | ⟨_, e, h1, h2⟩
  · cases h
  · cases e; exact ⟨h1, h2⟩

theorem offer_ok {limit : Nat} {s : Stream} {r : Option Rd} (h : Fits limit s) (ho : offer limit s r = .overrun) : False := by
  rcases offer_cases h.1 h.2 ho with h | ⟨_, e, h1, h2⟩
  · cases h
  · cases e

theorem loop_eq (limit : Nat) (out err : Stream) (rs : List Round) : loop limit out err rs =
    if out.done && err.done then some (.ended out err)
    else
      match rs with
      | [] => none
      | .fails :: _ => some (.ended out err)
      | .ready o e :: rs =>
        match offer limit out o with
        | .overrun => some .overrun
        | .tooMuch => some .truncated
        | .more out' =>
          match offer limit err e with
          | .overrun => some .overrun
          | .tooMuch => some .truncated
          | .more err' => loop limit out' err' rs := by
  cases rs with
  | nil => rfl
  | cons r rs =>
    cases r with
    | fails => simp only [loop]; split <;> rfl
    | ready o e => rfl

theorem loop_safe (limit : Nat) : ∀ (rs : List Round) (out err : Stream), Fits limit out → Fits limit err →
    ∀ l, loop limit out err rs = some l → l = .truncated ∨ ∃ o e, l = .ended o e ∧ Fits limit o ∧ Fits limit e
  | rs, out, err, h1, h2, l, h => by
    rw [loop_eq] at h
    by_cases hd : (out.done && err.done) = true
    · rw [if_pos hd] at h
      cases h
      exact .inr ⟨out, err, rfl, h1, h2⟩
    · rw [if_neg hd] at h
      cases rs with
      | nil => cases h
      | cons r rs =>
        cases r with
        | fails => cases h; exact .inr ⟨out, err, rfl, h1, h2⟩
        | ready o e =>
          cases ho : offer limit out o with
          | overrun => exact (offer_ok h1 ho).elim
          | tooMuch => simp only [ho] at h; cases h; exact .inl rfl
          | more out' =>
            cases he : offer limit err e with
            | overrun => exact (offer_ok h2 he).elim
            | tooMuch => simp only [ho, he] at h; cases h; exact .inl rfl
            | more err' =>
              simp only [ho, he] at h
              exact loop_safe limit rs out' err' (offer_fits h1 ho) (offer_fits h2 he) l h
  termination_by rs => rs.length

/-- One stream of a round that goes well. -/
theorem offer_rest {limit : Nat} {s : Stream} {r : Option Rd} {l : List Rd} (hc : Fits limit s) (hr : r ≠ some .error)
    (hl : (rest s (r.toList ++ l)).length ≤ limit) : ∃ s', offer limit s r = .more s' ∧ rest s' l = rest s (r.toList ++ l) := by
  unfold offer
  by_cases hd : s.done = true
  · rw [if_pos hd]
    exact ⟨s, rfl, by simp [rest, hd]⟩
  · rw [if_neg hd]
    have hd' : s.done = false := eq_false_of_ne_true hd
    cases r with
    | none => exact ⟨s, rfl, rfl⟩
    | some r =>
      cases r with
      | error => exact absurd rfl hr
      | eof => exact ⟨_, rfl, by simp [rest, hd', total]⟩
      | data b =>
        simp only [rest, hd', Option.toList, List.cons_append, List.nil_append, total, Bool.false_eq_true, if_false, List.length_append] at hl
        rcases take_data limit s b with ⟨h, _⟩ | ⟨_, h⟩
        · omega
        · obtain ⟨c, _, h⟩ := h hc.1
          exact ⟨_, h, by simp [rest, hd', total]⟩

theorem loop_all (limit : Nat) : ∀ (rs : List Round) (out err : Stream) (r : Loop), Fits limit out → Fits limit err →
    Smooth rs → (rest out (outs rs)).length ≤ limit → (rest err (errs rs)).length ≤ limit → loop limit out err rs = some r →
    ∃ o' e', r = .ended o' e' ∧ o'.kept = rest out (outs rs) ∧ e'.kept = rest err (errs rs)
  | rs, out, err, r, h1, h2, hs, h3, h4, h => by
    rw [loop_eq] at h
    by_cases hd : (out.done && err.done) = true
    · rw [if_pos hd] at h
      cases h
      have hd' := Bool.and_eq_true_iff.1 hd
      exact ⟨out, err, rfl, by simp [rest, hd'.1], by simp [rest, hd'.2]⟩
    · rw [if_neg hd] at h
      cases rs with
      | nil => simp at h
      | cons x rs =>
        cases x with
        | fails => exact absurd (by simp) hs.1
        | ready o e =>
          have ho : outs (.ready o e :: rs) = o.toList ++ outs rs := by cases o <;> simp [outs]
          have he : errs (.ready o e :: rs) = e.toList ++ errs rs := by cases e <;> simp [errs]
          rw [ho] at h3
          rw [he] at h4
          have hs' : Smooth rs := ⟨fun hh => hs.1 (by simp [hh]), fun hh => hs.2.1 (by rw [ho]; simp [hh]), fun hh => hs.2.2 (by rw [he]; simp [hh])⟩
          obtain ⟨out', g1, g2⟩ := offer_rest h1 (fun hh => hs.2.1 (by rw [ho, hh]; simp)) h3
          obtain ⟨err', g3, g4⟩ := offer_rest h2 (fun hh => hs.2.2 (by rw [he, hh]; simp)) h4
          simp only [g1, g3] at h
          rw [ho, he, ← g2, ← g4]
          exact loop_all limit rs out' err' r (offer_fits h1 g1) (offer_fits h2 g3) hs' (by rw [g2]; exact h3) (by rw [g4]; exact h4) h
  termination_by rs => rs.length

end Ex

open Ex

/-- C243: no byte of the output is written outside of its memory, whatever happens. -/
theorem C243_memory (limit : Nat) (rs : List Round) (st : Option Status) : execRounds limit rs st ≠ some .overrun := by
  unfold execRounds
  split
  · simp
  · rename_i h
    rcases loop_safe limit rs {} {} (fits_empty _) (fits_empty _) _ h with h | ⟨_, _, h, _⟩ <;> cases h
  · simp
  · simp

/-- C243: no more than the limit is kept of either stream. -/
theorem C243_bounded (limit : Nat) (rs : List Round) (st : Option Status) (r : Result) (h : execRounds limit rs st = some (.result r)) :
    r.out.length ≤ limit ∧ r.err.length ≤ limit := by
  unfold execRounds at h
  split at h
  · cases h
  · cases h
  · cases h; exact ⟨Nat.zero_le _, Nat.zero_le _⟩
  · rename_i o e hl
    have : o.kept.length ≤ limit ∧ e.kept.length ≤ limit := by
      rcases loop_safe limit rs {} {} (fits_empty _) (fits_empty _) _ hl with h | ⟨_, _, h, g1, g2⟩
      · cases h
      · cases h; exact ⟨g1.2, g2.2⟩
    simp only [Option.some.injEq, Outcome.result.injEq] at h
    split at h
    · subst h; exact ⟨Nat.zero_le _, Nat.zero_le _⟩
    · subst h; exact this

/-- C243: what a program that was started has written, and how it has ended, is what the caller gets. -/
def C243_statement : Prop :=
  ∀ (rs : List Round) (st : Option Status) (r : Result), execRounds outputMax rs st = some (.result r) →
    r.ok = true ∧ r.out = total (outs rs) ∧ r.err = total (errs rs) ∧ ∃ s, st = some s ∧ r.code = codeOf s

/-- C243 fails: a program that ends with 127 is taken for one that was not found, and its output is thrown away. -/
theorem C243_result_fails : ¬ C243_statement := by
  intro h
  have := (h [.ready (some (.data [65])) (some .eof), .ready (some .eof) none] (some (.exited 127)) fail (by decide +kernel)).1
  cases this

/-- C243: a signal during `select` ends the loop. The output is lost, and the result says that all went well. -/
theorem C243_interrupted_witness :
    execRounds outputMax [.ready (some (.data [65])) none, .fails, .ready (some (.data [66])) (some .eof), .ready (some .eof) none] (some (.exited 0)) =
      some (.result ⟨0, [65], [], true⟩) := by decide +kernel

/-- C243: a signal during `waitpid` gives the exit code 0. -/
theorem C243_waitpid_witness : execRounds outputMax [.ready (some .eof) (some .eof)] none = some (.result ⟨0, [], [], true⟩) := by decide +kernel

/-- C243: an error of `read` is taken for the end. -/
theorem C243_read_witness :
    execRounds outputMax [.ready (some .error) (some .eof)] (some (.exited 3)) = some (.result ⟨3, [], [], true⟩) := by decide +kernel

/-- C243: too much output: the whole result is thrown away, as if the program had not been found. Shown for any limit. -/
theorem C243_too_much_witness (limit : Nat) (b : List Byte) (hb : limit < b.length) (st : Option Status) :
    execRounds limit [.ready (some (.data b)) none] st = some (.result fail) := by
  unfold execRounds
  rw [loop_eq]
  simp [offer, take, hb]

/-- C243: the result is right if `select`, `read` and `waitpid` do not fail, there is no more output than the limit, and the exit code is
not 127. Missing: the other cases. -/
theorem C243_result_partial (limit : Nat) (rs : List Round) (s : Status) (r : Outcome) (hs : Smooth rs) (h1 : (total (outs rs)).length ≤ limit)
    (h2 : (total (errs rs)).length ≤ limit) (h3 : s ≠ .exited 127)
    (h : execRounds limit rs (some s) = some r) :
    r = .result ⟨codeOf s, total (outs rs), total (errs rs), true⟩ := by
  unfold execRounds at h
  have hr : ∀ l, rest ({} : Stream) l = total l := fun l => by simp [rest]
  split at h
  · cases h
  · rename_i hl
    rcases loop_safe limit rs {} {} (fits_empty _) (fits_empty _) _ hl with h | ⟨_, _, h, _⟩ <;> cases h
  · rename_i hl
    obtain ⟨_, _, hh, -⟩ := loop_all limit rs {} {} _ (fits_empty _) (fits_empty _) hs (by rw [hr]; exact h1) (by rw [hr]; exact h2) hl
    cases hh
  · rename_i o e hl
    obtain ⟨o', e', hh, g1, g2⟩ := loop_all limit rs {} {} _ (fits_empty _) (fits_empty _) hs (by rw [hr]; exact h1) (by rw [hr]; exact h2) hl
    cases hh
    rw [hr] at g1 g2
    have hc : exitCode (some s) = codeOf s := by cases s <;> rfl
    have h7 : exitCode (some s) ≠ 127 := by
      cases s with
      | exited n => exact fun e => h3 (by rw [show n = 127 from e])
      | signalled n => show 128 + n ≠ 127; omega
    simp only [Option.some.injEq] at h
    rw [← h, if_neg h7, g1, g2, hc]

example : execRounds 10 [.ready (some (.data [65, 66])) none, .ready (some (.data [67])) (some (.data [68])), .ready none (some .eof), .ready (some .eof) none]
    (some (.exited 2)) = some (.result ⟨2, [65, 66, 67], [68], true⟩) := by decide +kernel

/-- C243: the arguments arrive as they are if they hold no zero byte, and otherwise are cut there. -/
theorem C243_arguments (cmd : List Byte) (args : List (List Byte)) (hc : (0 : Byte) ∉ cmd) (h : ∀ a ∈ args, (0 : Byte) ∉ a) :
    argv cmd args = cmd :: args := by
  have key : ∀ a : List Byte, (0 : Byte) ∉ a → cstr a = a := by
    intro a ha
    induction a with
    | nil => rfl
    | cons x a ih =>
      simp only [List.mem_cons, not_or] at ha
      have hx : x ≠ 0 := fun e => ha.1 e.symm
      show (x :: a).takeWhile _ = _
      rw [List.takeWhile_cons_of_pos (by simpa using hx)]
      exact congrArg _ (ih ha.2)
  unfold argv
  rw [key cmd hc]
  congr 1
  have : ∀ l : List (List Byte), (∀ a ∈ l, (0 : Byte) ∉ a) → l.map cstr = l := by
    intro l hl
    induction l with
    | nil => rfl
    | cons x l ih => simp only [List.map_cons, key x (hl x (by simp)), ih fun a ha => hl a (by simp [ha])]
  exact this args h

theorem C243_argument_cut_witness : argv [99] [[97, 0, 98]] = [[99], [97]] := by decide

/-! ### The environment -/

/-- C244: a value that was set is the value that is read. -/
def C244_statement : Prop := ∀ (e : Env) (n v : List Byte), getEnv (setEnv e n v) n = v

/-- C244 fails: an empty name, a name with an equals sign, and a value with a zero byte, without any error. -/
theorem C244_set_fails : ¬ C244_statement := by
  intro h
  have := h [] [] [65]
  cases this

theorem C244_equals_witness : getEnv (setEnv [] [65, 61] [66]) [65, 61] = [] := by decide
theorem C244_zero_witness : getEnv (setEnv [] [65] [66, 0, 67]) [65] = [66] := by decide

/-- C244: names that differ after a zero byte are the same variable. -/
theorem C244_same_name_witness : getEnv (setEnv [] [65, 0, 66] [67]) [65, 0, 68] = [67] := by decide

namespace Ex

theorem cstr_id {a : List Byte} (h : (0 : Byte) ∉ a) : cstr a = a := by
  have := C243_arguments a [] h (by simp)
  simpa [argv] using this

theorem find_filter (e : Env) (n k : List Byte) : (e.filter (fun x => x.1 != n)).find? (fun x => x.1 == k) = if k = n then none else e.find? (fun x => x.1 == k) := by
  induction e with
  | nil => simp
  | cons x e ih =>
    rw [List.filter_cons]
    by_cases hx : x.1 = n
    · simp only [hx, bne_self_eq_false, Bool.false_eq_true, if_false, ih, List.find?_cons]
      by_cases hk : k = n
      · simp [hk]
      · have : (n == k) = false := by simpa using fun e => hk e.symm
        simp [hk, this]
    · have h1 : (x.1 != n) = true := by simpa using hx
      rw [if_pos h1, List.find?_cons, List.find?_cons]
      by_cases hk : x.1 = k
      · have hkn : k ≠ n := fun e => hx (by rw [hk, e])
        simp [hk, hkn]
      · have : (x.1 == k) = false := by simpa using hk
        simp only [this, ih]

end Ex

/-- C244: a name that is not empty, with neither equals sign nor zero byte, can be set to any value without a zero byte. Missing: other
names and values. -/
theorem C244_set_partial (e : Env) (n v : List Byte) (h1 : n ≠ []) (h2 : (61 : Byte) ∉ n) (h3 : (0 : Byte) ∉ n) (h4 : (0 : Byte) ∉ v) :
    getEnv (setEnv e n v) n = v := by
  unfold getEnv setEnv
  rw [cstr_id h3, cstr_id h4, if_neg (fun hh => hh.elim h1 h2)]
  simp

/-- C244: setting a variable leaves the others alone. -/
theorem C244_others (e : Env) (n v k : List Byte) (h : cstr k ≠ cstr n) : getEnv (setEnv e n v) k = getEnv e k := by
  unfold getEnv setEnv
  by_cases hh : cstr n = [] ∨ 61 ∈ cstr n
  · rw [if_pos hh]
  · have : (cstr n == cstr k) = false := by simpa using fun e => h e.symm
    rw [if_neg hh]
    simp only [List.find?_cons, this, find_filter, if_neg h]

/-- C244: a variable that was removed reads as empty, and the others are left alone. -/
theorem C244_unset_partial (e : Env) (n k : List Byte) (h1 : n ≠ []) (h2 : (61 : Byte) ∉ n) (h3 : (0 : Byte) ∉ n) :
    getEnv (unsetEnv e n) k = if cstr k = n then [] else getEnv e k := by
  unfold getEnv unsetEnv
  rw [cstr_id h3, if_neg (fun hh => hh.elim h1 h2), find_filter]
  by_cases hk : cstr k = n
  · rw [if_pos hk, if_pos hk]
  · rw [if_neg hk, if_neg hk]

end Verif.Props
