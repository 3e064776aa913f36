import Verif.Deadwood.DepthLemmas
/-!
# C32, C54: sub-queries are bounded, and their results go to the request that wants them
-/

namespace Dw
namespace Depth

/-- **C32**: in every history, for every delegation graph (any sequence of referrals, servers
without known address, CNAMEs, time-outs and re-used places), a pending request is at most 27
sub-queries away from a client's question, starts at most 83 sub-queries and contacts at most
84 servers; the three together are bounded. -/
theorem work_bounded (size : Nat) (es : List Ev) (n : Nat)
    (h : ((run (start size) es).t n).used = true) :
    1 ≤ ((run (start size) es).t n).tries ∧
    3 * ((run (start size) es).t n).gen + ((run (start size) es).t n).kids +
      ((run (start size) es).t n).tries ≤ 84 := by
  have g := (inv_run es _ (inv_start size)).good n
  have := g.2 h
  have := g.1
  omega

/-- The count fits its 8 bits, also for places that are free. -/
theorem depth_fits (size : Nat) (es : List Ev) (n : Nat) :
    ((run (start size) es).t n).depth ≤ 84 :=
  ((inv_run es _ (inv_start size)).good n).1

/-- A request whose servers all turn out to have unknown addresses: the sub-query is started,
its own sub-query too. -/
example : ((run (start 5) [.arrive (.refer (.refer .ok)), .cname 2 .ok]).t 2).gen = 2 ∧
    ((run (start 5) [.arrive (.refer (.refer .ok)), .cname 2 .ok]).t 2).kids = 1 ∧
    ((run (start 5) [.arrive (.refer (.refer .ok)), .cname 2 .ok]).t 2).used = true := by
  decide +kernel

/-- A chain of CNAMEs without end stops. -/
def cnames : Nat → List Ev
  | 0 => [.arrive .ok]
  | k + 1 => cnames k ++ [.cname k .ok]

example : ((run (start 99) (cnames 40)).t 26).gen = 26 ∧
    ((run (start 99) (cnames 40)).t 27).gen = 27 ∧
    ((run (start 99) (cnames 40)).t 28).used = false := by decide +kernel

/-! ### The call stack -/

/-- Forget what happens after `k` servers without known address. -/
def Net.cut : Nat → Net → Net
  | 0, _ => .fail
  | k + 1, .refer net => .refer (net.cut k)
  | _ + 1, net => net

theorem bubble_mono (new : Nat) : ∀ fuel conn here t, (t new).depth = here →
    (t new).depth ≤ ((bubble new fuel conn here t).1 new).depth := by
  intro fuel
  induction fuel with
  | zero => intro conn here t _; exact Nat.le_refl _
  | succ fuel ih =>
    intro conn here t hn
    unfold bubble
    split
    · cases hp : (t conn).parent with
      | none => exact Nat.le_refl _
      | some p =>
        simp only
        by_cases hd : (t p).depth > 83
        · rw [if_pos hd]; exact Nat.le_refl _
        · rw [if_neg hd]
          have hb : (t new).depth ≤ (bump t p new).depth := by
            unfold bump
            by_cases e : new = p
            · rw [e, upd_same]; simp
            · rw [upd_ne _ _ e]; exact Nat.le_refl _
          by_cases hlt : (bump t p p).depth < here
          · rw [if_pos hlt]
            have hne : new ≠ p := by
              rintro rfl; omega
            have e : (upd (bump t p) p { bump t p p with depth := here } new).depth = here := by
              rw [upd_ne _ _ hne]; unfold bump; rw [upd_ne _ _ hne]; exact hn
            exact Nat.le_trans (by rw [e, hn]; exact Nat.le_refl _) (ih p here _ e)
          · rw [if_neg hlt]
            have e : (upd (bump t p) new { bump t p new with depth := (bump t p p).depth } new).depth =
              (bump t p p).depth := by rw [upd_same]
            exact Nat.le_trans (by rw [e]; omega) (ih p _ _ e)
    · exact Nat.le_refl _

theorem gluelessNew_congr {kind n : Nat} {s : S} {f g : Nat → S → S}
    (h : ∀ c s', (s.t n).depth + 2 ≤ (s'.t c).depth → f c s' = g c s') :
    gluelessNew kind f n s = gluelessNew kind g n s := by
  unfold gluelessNew
  by_cases hd : (s.t n).depth ≥ 83
  · rw [if_pos hd, if_pos hd]
  rw [if_neg hd, if_neg hd]
  simp only
  have m := bubble_mono n 120 n _ (bump s.t n) rfl
  have e : (bump s.t n n).depth = (s.t n).depth + 1 := by simp [bump]
  generalize bubble n 120 n (bump s.t n n).depth (bump s.t n) = bb at m
  obtain ⟨t1, go⟩ := bb
  cases go with
  | false => rfl
  | true =>
    simp only at m ⊢
    cases hf : findFree { s with t := t1 } with
    | none => rfl
    | some c =>
      simp only
      rw [h c _ (by simp only [upd_same]; omega)]

/-- **C32**, the calls: a call that reaches for a server never nests deeper than its depth
count allows.  What would happen beyond that has no effect at all, so at most 28 calls are
active at a time. -/
theorem nesting_cut (k : Nat) : ∀ (net : Net) (n : Nat) (s : S), 83 < (s.t n).depth + 3 * k →
    makeConn net n s = makeConn (net.cut k) n s := by
  induction k with
  | zero =>
    intro net n s h
    unfold makeConn
    rw [if_pos (by omega), if_pos (by omega)]
  | succ k ih =>
    intro net n s h
    cases net with
    | fail => rfl
    | ok => rfl
    | refer net =>
      simp only [Net.cut]
      unfold makeConn
      by_cases hd : (s.t n).depth > 83
      · rw [if_pos hd, if_pos hd]
      rw [if_neg hd, if_neg hd]
      simp only
      apply gluelessNew_congr
      intro c s' hs'
      apply ih
      have e : (upd (bump s.t n) n { bump s.t n n with tries := (bump s.t n n).tries + 1 } n).depth =
        (s.t n).depth + 1 := by simp [bump]
      simp only [e] at hs'
      omega

example : makeConn (.refer (.refer .ok)) 0 (newRequest 0 false (start 5)) =
    makeConn ((Net.refer (.refer .ok)).cut 28) 0 (newRequest 0 false (start 5)) :=
  nesting_cut 28 _ _ _ (by decide)

/-! ### Who gets the results -/

/-- **C54**: the result of a sub-query is only ever handed to the very request the sub-query was
started for, even if the place of that request has been given to another one since. -/
theorem result_to_right_request_partial (size : Nat) (es : List Ev) (want got : Nat)
    (h : (true, want, got) ∈ (run (start size) es).log) : want = got :=
  (inv_run es _ (inv_start size)).log _ h rfl

example : (true, 0, 0) ∈ (run (start 5) [.arrive .ok, .again 0 (.refer .ok), .answered 1 [true]]).log := by
  decide +kernel

/-- The place of the first request is given to another while its sub-query is pending: the
result is not handed over. -/
example : (run (start 5) [.arrive .ok, .again 0 (.refer .ok), .expire 0, .arrive .ok,
    .answered 1 [true]]).log = [] := by decide +kernel

/-- For a chain of CNAMEs that does not hold further up: there the check is missing
(`dwx_send_glueless_cname_upstream`).  Here request 2, which came after request 0 was over and
got its place, is given the answer meant for request 0. -/
theorem chain_result_to_stranger :
    ∃ size es want got, (false, want, got) ∈ (run (start size) es).log ∧ want ≠ got :=
  ⟨5, [.arrive .ok, .cname 0 .ok, .cname 1 .ok, .expire 0, .arrive .ok, .cname 0 .ok,
    .answered 2 [true, true]], 0, 3, by decide +kernel, by decide⟩

/-- A sub-query that itself needs a sub-query before it can be sent is given up at once; its
own sub-query goes on in vain. -/
example : ((run (start 5) [.arrive .ok, .again 0 (.refer (.refer .ok))]).t 1).used = false ∧
    ((run (start 5) [.arrive .ok, .again 0 (.refer (.refer .ok))]).t 2).parent = some 1 := by
  decide +kernel


end Depth
end Dw
