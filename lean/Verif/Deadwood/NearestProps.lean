import Verif.Deadwood.TrustExamples
import Verif.Spec.Zone
/-!
# C111: the nearest servers known are asked
-/

namespace Spec

/-- Of what `known` has for the zones a name is in (what is behind some number of its labels), `l` is that of the nearest. -/
def Nearest (known : List (List UInt8) → Option (List UInt8)) (q : List (List UInt8)) (l : List UInt8) : Prop :=
  ∃ k ≤ q.length, known (q.drop k) = some l ∧ ∀ j < k, known (q.drop j) = none

end Spec

namespace Dw
namespace Trust
open DwStr Dissect Incoming Ns
open Spec

/-- What the cache has about the servers of a zone. -/
def serversOf (c : List Entry) (z : List (List UInt8)) : Option (List UInt8) := get c (encName z ++ be16 65395)

theorem climb_exact (c : List Entry) (junk : List UInt8) : ∀ (n : Nat) (ls : List (List UInt8)) (r : DwStr), Usable r → LabelsOk ls →
    r.contents = encName ls ++ be16 65395 → ls.length < n →
    (∃ l, climb c junk n r = .ok (some l) ∧ Nearest (serversOf c) ls l) ∨
    (climb c junk n r = .ok none ∧ ∀ k ≤ ls.length, serversOf c (ls.drop k) = none)
  | 0, _, _, _, _, _, h => by omega
  | n + 1, ls, r, hr, hl, hc, hn => by
    unfold climb
    cases hg : get c r.contents with
    | some v =>
      left
      exact ⟨v, rfl, 0, by omega, by unfold serversOf; rw [List.drop_zero, ← hc, hg], fun j hj => by omega⟩
    | none =>
      have h0 : serversOf c ls = none := by unfold serversOf; rw [← hc, hg]
      dsimp only
      obtain ⟨d1, -, d3⟩ := dnslabelChop_exact hr junk
      cases ls with
      | nil =>
        right
        rw [d3 0 (be16 65395) (by rw [hc]; rfl) (.inl rfl)]
        exact ⟨rfl, fun k _ => by rw [List.drop_nil]; exact h0⟩
      | cons x xs =>
        have hx := hl x (by simp)
        obtain ⟨o, e1, e2, e3⟩ := d1 x (encName xs ++ be16 65395) (by rw [hc]; simp [encName, encLabels]) hx.1 hx.2
        obtain ⟨o', f1, f2, -, f3⟩ := copy_exact e2 junk
        rw [e1]
        dsimp only
        rw [f1]
        rcases climb_exact c junk n xs o' f2 (fun y hy => hl y (by simp [hy])) (by rw [f3, e3]) (by simp only [List.length_cons] at hn; omega) with
          ⟨l, h1, k, h2, h3, h4⟩ | ⟨h1, h2⟩
        · left
          refine ⟨l, h1, k + 1, by simp only [List.length_cons]; omega, by simpa using h3, ?_⟩
          intro j hj
          cases j with
          | zero => exact h0
          | succ j => simpa using h4 j (by omega)
        · right
          refine ⟨h1, ?_⟩
          intro k hk
          cases k with
          | zero => exact h0
          | succ k => simpa using h2 k (by simp only [List.length_cons] at hk; omega)

/-- **C111.** The list of servers a question is first sent to is that of the nearest zone, of those the name is in, for which the cache has
one; and there is none only if the cache has none for any of them. -/
theorem nearest_first {c : List Entry} {q : List (List UInt8)} (t : Nat) (hq : Spec.NameOk q) (junk : List UInt8) :
    (∃ l, upstreamNs c (encName q ++ be16 t) junk = .ok (some (l, l.getLast? == some 22)) ∧ Nearest (serversOf c) q l) ∨
    (upstreamNs c (encName q ++ be16 t) junk = .ok none ∧ ∀ k ≤ q.length, serversOf c (q.drop k) = none) := by
  have hu : Usable (Remote.dstr (encName q ++ be16 t)) := Remote.dstr_usable (by
    have := hq.2; simp only [List.length_append, be16_length]; omega)
  have hlen : q.length < 260 := by
    have h1 : ∀ x : List (List UInt8), x.length < (encName x).length := by
      intro x
      induction x with
      | nil => decide
      | cons l x ih =>
        unfold encName at ih ⊢
        rw [encLabels_cons]
        simp only [List.length_append, List.length_cons] at ih ⊢
        omega
    have := h1 q
    have := hq.2
    omega
  unfold upstreamNs
  obtain ⟨r, e1, e2, e3, e4⟩ := copy_exact hu junk
  rw [e1, Res.ok_bind]
  rw [Remote.dstr_contents] at e4
  obtain ⟨r', f1, f2, f3, f4⟩ := (popU16_exact e2).2 (encName q) (UInt8.ofNat (t / 256)) (UInt8.ofNat t) (by rw [e4]; rfl)
  rw [f1, Res.ok_bind]
  dsimp only
  obtain ⟨r'', g1, g2, -, g4⟩ := (pushU16_exact 65395 f2).2 (by
    rw [f3, e3, f4]; simp [Remote.dstr, be16_length])
  rw [g1, Res.ok_bind]
  rw [f4] at g4
  rcases climb_exact c junk 260 q r'' g2 hq.1 g4 hlen with ⟨l, h1, h2⟩ | ⟨h1, h2⟩
  · exact .inl ⟨l, by rw [h1, Res.ok_bind], h2⟩
  · exact .inr ⟨by rw [h1, Res.ok_bind], h2⟩

/-! ### What is configured stays -/

/-- The cache has this for the key, and it is configured. -/
def Fixed (c : List Entry) (key v : List UInt8) : Prop := c.find? (fun e => e.key == key) = some ⟨key, v, true⟩

theorem Fixed.get {c : List Entry} {key v : List UInt8} (h : Fixed c key v) : get c key = some v := by
  unfold Trust.get
  rw [h]
  rfl

theorem find_filter {p q : Entry → Bool} {e : Entry} : ∀ {c : List Entry}, c.find? p = some e → q e = true → (c.filter q).find? p = some e
  | x :: c, h, hq => by
    rw [List.find?_cons] at h
    rw [List.filter_cons]
    split at h
    · rename_i hp
      cases h
      rw [if_pos hq, List.find?_cons, hp]
    · rename_i hp
      split
      · rw [List.find?_cons, hp]
        exact find_filter h hq
      · exact find_filter h hq

theorem Fixed.put {c : List Entry} {key v : List UInt8} (h : Fixed c key v) (k x : List UInt8) : Fixed (put c k x) key v := by
  unfold Trust.put
  split
  · exact h
  · rename_i hn
    have hk : k ≠ key := by
      rintro rfl
      apply hn
      rw [List.any_eq_true]
      exact ⟨_, List.mem_of_find?_eq_some h, by simp⟩
    unfold Fixed
    rw [List.find?_cons, show ((⟨k, x, false⟩ : Entry).key == key) = false by simpa using hk]
    exact find_filter h (by simpa using fun e => hk e.symm)

theorem Fixed.putAll {key v : List UInt8} : ∀ {ps : List Put} {c : List Entry}, Fixed c key v → Fixed (putAll c ps) key v
  | [], _, h => h
  | p :: ps, _, h => Fixed.putAll (ps := ps) (h.put p.key p.value)

theorem connect_cache {cfg : Cfg} {s s' : State} {b : Nat} {w : Wire} {junk : List UInt8}
    (hc : connect cfg s b w junk = .ok s') : s'.cache = s.cache := by
  unfold connect at hc
  cases hb : s.slots b with
  | none => rw [hb] at hc; cases hc; rfl
  | some sl =>
  rw [hb] at hc
  dsimp only at hc
  cases hw : whom s sl junk with
  | err => rw [hw] at hc; cases hc
  | ub => rw [hw] at hc; cases hc
  | ok o =>
    rw [hw, Res.ok_bind] at hc
    cases o with
    | none => cases hc; rfl
    | some x =>
      obtain ⟨l, up⟩ := x
      dsimp only at hc
      cases hf : findAddr cfg s.cache (Remote.dstr l) (w.tries.take 7) sl.current with
      | err => rw [hf] at hc; cases hc
      | ub => rw [hf] at hc; cases hc
      | ok y =>
        obtain ⟨f, cur⟩ := y
        rw [hf, Res.ok_bind] at hc
        cases f with
        | nobody => cases hc; rfl
        | ip a => cases hc; rfl
        | name n =>
          dsimp only at hc
          split at hc <;> (cases hc; rfl)

theorem refer_cache {cfg : Cfg} {s s' : State} {b : Nat} {sl : Slot} {l : List UInt8} {kept : Bool} {w : Wire} {junk : List UInt8}
    (h : refer cfg s b sl l kept w junk = .ok s') : s'.cache = s.cache := by
  unfold refer at h
  split at h
  · have := connect_cache h
    exact this
  · cases h; rfl

theorem follow_fixed {cfg : Cfg} {s s' : State} {b : Nat} {sl : Slot} {a q : List UInt8} {most : Int} {w : Wire} {junk : List UInt8}
    {key v : List UInt8} (hf : Fixed s.cache key v) (h : follow cfg s b sl a q most w junk = .ok s') : Fixed s'.cache key v := by
  unfold follow at h
  split at h
  · split at h
    · cases h; exact hf.put _ _
    · cases h; exact hf
    · cases h
  · split at h <;> (cases h; exact hf)

theorem pass_fixed {cfg : Cfg} {s s' : State} {b : Nat} {sl : Slot} {from_ a a' : List UInt8} {count : Nat} {most : Int} {w : Wire}
    {junk : List UInt8} {go : Bool} {key v : List UInt8} (hf : Fixed s.cache key v) (h : pass cfg s b sl from_ a count most w junk = .ok (s', a', go)) :
    Fixed s'.cache key v := by
  rcases pass_cases h with ⟨k, -, e | e | ⟨l, st, -, -, h⟩⟩ | ⟨e, -⟩
  · rw [e]; exact hf
  · rw [e]; exact hf
  · have h1 : Fixed (putAll s.cache st.puts) key v := hf.putAll
    rcases h with ⟨l', -, h⟩ | ⟨q, p, -, -, -, h⟩ | h
    · rw [refer_cache h]; exact h1
    · exact follow_fixed h1 h
    · rw [h]; exact h1
  · rw [e]; exact hf

theorem passes_fixed {cfg : Cfg} {b : Nat} {from_ junk : List UInt8} {count : Nat} {key v : List UInt8} :
    ∀ {n : Nat} {s s' : State} {a : List UInt8} {ws : List (Wire × Int)}, Fixed s.cache key v →
      passes cfg b from_ count junk n s a ws = .ok s' → Fixed s'.cache key v
  | 0, s, s', a, ws, hf, h => by cases h; exact hf
  | n + 1, s, s', a, ws, hf, h => by
    unfold passes at h
    cases hb : s.slots b with
    | none => rw [hb] at h; cases h; exact hf
    | some sl =>
    rw [hb] at h
    dsimp only at h
    cases hp : pass cfg s b sl from_ a count (ws.headD default).2 (ws.headD default).1 junk with
    | err => rw [hp] at h; cases h
    | ub => rw [hp] at h; cases h
    | ok x =>
    obtain ⟨s1, a1, go⟩ := x
    rw [hp, Res.ok_bind] at h
    dsimp only at h
    have hg := pass_fixed hf hp
    split at h
    · exact passes_fixed hg h
    · cases h; exact hg

theorem finish_fixed {cfg : Cfg} {s s' : State} {b : Nat} {w : Wire} {junk key v : List UInt8} (hf : Fixed s.cache key v)
    (h : finish cfg s b w junk = .ok s') : Fixed s'.cache key v := by
  have hj : ∀ q a x, finish.join cfg s junk q a x = .ok s' → Fixed s'.cache key v := by
    intro q a x h
    unfold finish.join at h
    split at h
    · cases h; exact hf.put _ _
    · cases h; exact hf
    · cases h
  unfold finish at h
  split at h
  · cases h; exact hf
  split at h
  · cases h; exact hf
  split at h
  · cases h; exact hf
  · split at h
    · cases h; exact hf
    split at h
    · cases h; exact hf
    rename_i x _ _ _ _ _ _ _ _ _
    cases hx : fromAnswer (Remote.dstr x) (w.tries.headD default).2 with
    | err => rw [hx] at h; cases h
    | ub => rw [hx] at h; cases h
    | ok o =>
      rw [hx, Res.ok_bind] at h
      cases o with
      | none => cases h; exact hf
      | some ip => cases h; exact hf
  · split at h
    · cases h; exact hf
    split at h
    · cases h; exact hf
    exact hj _ _ _ h
  · exact hj _ _ _ h

theorem step_fixed {cfg : Cfg} {s s' : State} {e : Ev} {junk key v : List UInt8} (hf : Fixed s.cache key v) (h : step cfg junk s e = .ok s') :
    Fixed s'.cache key v := by
  cases e with
  | start b q =>
    simp only [step] at h
    split at h <;> (cases h; exact hf)
  | seen b q =>
    simp only [step] at h
    split at h
    swap
    · cases h; exact hf
    split at h
    · cases h; exact hf
    rename_i action _
    cases hl : leadsTo action with
    | err => rw [hl] at h; cases h
    | ub => rw [hl] at h; cases h
    | ok o =>
    cases o with
    | none => rw [hl, Res.ok_bind] at h; cases h; exact hf
    | some n => rw [hl, Res.ok_bind] at h; cases h; exact hf
  | merge b =>
    simp only [step] at h
    split at h <;> (cases h; exact hf)
  | send b w =>
    simp only [step] at h
    split at h
    · cases h; exact hf
    · have := connect_cache h
      rw [this]
      exact hf
  | receive b p n ws =>
    rcases receive_cases h with rfl | ⟨sl, k, a, -, -, -, -, -, -, h⟩
    · exact hf
    · exact passes_fixed hf h
  | finish b w => exact finish_fixed hf h
  | drop b => cases h; exact hf
  | lapse k =>
    cases h
    exact find_filter hf (by simp)

/-- **C111.** What is configured stays in the cache as it is, whatever happens. -/
theorem configured_stays {cfg : Cfg} {junk key v : List UInt8} : ∀ {evs : List Ev} {s s' : State}, Fixed s.cache key v →
    run cfg junk s evs = .ok s' → Fixed s'.cache key v
  | [], s, s', hf, h => by cases h; exact hf
  | e :: es, s, s', hf, h => by
    unfold run at h
    cases h1 : step cfg junk s e with
    | err => rw [h1] at h; cases h
    | ub => rw [h1] at h; cases h
    | ok s1 =>
      rw [h1] at h
      exact configured_stays (step_fixed hf h1) h

/-- A request that has no list of servers yet is sent: it gets one. -/
theorem send_nearest {cfg : Cfg} {s s' : State} {b : Nat} {w : Wire} {junk : List UInt8} {sl : Slot} (hb : s.slots b = some sl) (hns : sl.ns = none)
    {q : List (List UInt8)} {t : Nat} (hq : Spec.NameOk q) (hask : sl.query = encName q ++ be16 t) (hsome : ∃ k ≤ q.length, serversOf s.cache (q.drop k) ≠ none)
    (h : step cfg junk s (.send b w) = .ok s') :
    ∃ l sl', Nearest (serversOf s.cache) q l ∧ s'.slots b = some sl' ∧ sl'.query = sl.query ∧ sl'.ns = some l ∧ ∀ k, sl'.sock = some k → k.list = l := by
  simp only [step, hb] at h
  unfold connect at h
  have e0 : (s.set b (some { sl with sock := none })).slots b = some { sl with sock := none } := by simp [State.set]
  rw [e0] at h
  dsimp only at h
  rcases nearest_first (c := s.cache) t hq junk with ⟨l, h1, h2⟩ | ⟨h1, h2⟩
  swap
  · obtain ⟨k, hk, hne⟩ := hsome
    exact absurd (h2 k hk) hne
  have hw : whom (s.set b (some { sl with sock := none })) { sl with sock := none } junk = .ok (some (l, sl.up || l.getLast? == some 22)) := by
    unfold whom
    rw [hns]
    dsimp only
    show (upstreamNs s.cache sl.query junk).bind _ = _
    rw [hask, h1]
    rfl
  rw [hw, Res.ok_bind] at h
  dsimp only at h
  cases hf : findAddr cfg s.cache (Remote.dstr l) (w.tries.take 7) sl.current with
  | err => rw [show (s.set b (some { sl with sock := none })).cache = s.cache from rfl, hf] at h; cases h
  | ub => rw [show (s.set b (some { sl with sock := none })).cache = s.cache from rfl, hf] at h; cases h
  | ok y =>
    obtain ⟨f, cur⟩ := y
    rw [show (s.set b (some { sl with sock := none })).cache = s.cache from rfl, hf, Res.ok_bind] at h
    cases f with
    | nobody =>
      cases h
      exact ⟨l, _, h2, set_same _ _ _, rfl, rfl, fun k hk => by cases hk⟩
    | ip a =>
      cases h
      refine ⟨l, _, h2, set_same _ _ _, ?_, ?_, ?_⟩
      · split <;> rfl
      · split <;> rfl
      · intro k hk
        split at hk
        · cases hk; rfl
        · cases hk
    | name n =>
      dsimp only at h
      split at h
      · rename_i hcond
        cases h
        refine ⟨l, { sl with ns := some l, up := sl.up || l.getLast? == some 22, current := cur, sock := none, child := some w.free }, h2, ?_, rfl, rfl, fun k hk => by cases hk⟩
        simp only [State.set, if_neg (Ne.symm hcond.2.1), if_true]
      · cases h
        exact ⟨l, _, h2, set_same _ _ _, rfl, rfl, fun k hk => by cases hk⟩

/-- **C111.** At any time, after any events: a question for a name below a zone with configured servers has somebody to be sent to, namely
the servers of the nearest zone the name is in that the cache then knows of, which is the configured one or one below it. -/
theorem nearest_always {cfg : Cfg} {junk : List UInt8} {z : List (List UInt8)} {v : List UInt8} {evs : List Ev} {s s1 s2 : State}
    (hf : Fixed s.cache (encName z ++ be16 65395) v) (hrun : run cfg junk s evs = .ok s1) {b : Nat} {w : Wire} {sl : Slot}
    (hb : s1.slots b = some sl) (hns : sl.ns = none) {q : List (List UInt8)} {t : Nat} (hq : Spec.NameOk q) (hask : sl.query = encName q ++ be16 t)
    (hz : z <:+ q) (h : step cfg junk s1 (.send b w) = .ok s2) :
    ∃ l sl' k, k ≤ q.length - z.length ∧ serversOf s1.cache (q.drop k) = some l ∧ (∀ j < k, serversOf s1.cache (q.drop j) = none) ∧
      s2.slots b = some sl' ∧ sl'.query = sl.query ∧ sl'.ns = some l ∧ ∀ so, sl'.sock = some so → so.list = l := by
  have hd : q.drop (q.length - z.length) = z := by
    obtain ⟨x, rfl⟩ := hz
    simp
  have hg : serversOf s1.cache (q.drop (q.length - z.length)) = some v := by
    rw [hd]
    exact (configured_stays hf hrun).get
  obtain ⟨l, sl', ⟨k, h1, h2, h3⟩, h4, h5, h6, h7⟩ := send_nearest hb hns hq hask ⟨q.length - z.length, by omega, by rw [hg]; simp⟩ h
  refine ⟨l, sl', k, ?_, h2, h3, h4, h5, h6, h7⟩
  apply Nat.le_of_not_lt
  intro hlt
  rw [h3 _ hlt] at hg
  cases hg

/-! ### Examples -/

theorem tRoot_fixed : Fixed (State.init [([], tRoot)]).cache (encName [] ++ be16 65395) tRoot := by
  unfold Fixed
  decide +kernel

def tBegin : State := .init [([], tRoot)]

def tSeen (r : Res State) (b : Nat) : Option (List Entry × Option Slot) :=
  match r with
  | .ok s => some (s.cache, s.slots b)
  | _ => none

/-- After the events of `tEvs` (the root refers to the server of `v.c.`, which answers) somebody asks for the address of `y.v.c.`: the server of
`v.c.` is asked, not that of the root. -/
theorem nearest_run : tSeen (run tCfg [] tBegin (tEvs ++ [.start 5 (encName [[121], [118], [99]] ++ be16 1), .send 5 tWire])) 5 =
    some ([⟨tAsk, (⟨[⟨tQ, 1, [0, 1], 300, [], [], [1, 2, 3, 4]⟩], [], [], 0⟩ : Answers).packed.enc, false⟩, ⟨encName tV ++ be16 65395, tEvil, false⟩, ⟨encName [] ++ be16 65395, tRoot, true⟩],
      some ⟨encName [[121], [118], [99]] ++ be16 1, some ⟨7, [6, 6, 6, 6], tEvil⟩, some tEvil, false, none, none, 1, .client⟩) := by
  decide +kernel

example : ∃ s1, run tCfg [] tBegin (tEvs ++ [.start 5 (encName [[121], [118], [99]] ++ be16 1)]) = .ok s1 ∧
    ∀ w s2, step tCfg [] s1 (.send 5 w) = .ok s2 → ∃ l sl' k, k ≤ 3 - 0 ∧ serversOf s1.cache (List.drop k [[121], [118], [99]]) = some l ∧
      (∀ j < k, serversOf s1.cache (List.drop j [[121], [118], [99]]) = none) ∧ s2.slots 5 = some sl' ∧
      sl'.query = encName [[121], [118], [99]] ++ be16 1 ∧ sl'.ns = some l ∧ ∀ so, sl'.sock = some so → so.list = l := by
  have e : (tSeen (run tCfg [] tBegin (tEvs ++ [.start 5 (encName [[121], [118], [99]] ++ be16 1)])) 5).map Prod.snd =
      some (some (.fresh (encName [[121], [118], [99]] ++ be16 1) .client)) := by decide +kernel
  cases hr : run tCfg [] tBegin (tEvs ++ [.start 5 (encName [[121], [118], [99]] ++ be16 1)]) with
  | err => rw [hr] at e; cases e
  | ub => rw [hr] at e; cases e
  | ok s1 =>
    rw [hr] at e
    have hs : s1.slots 5 = some (.fresh (encName [[121], [118], [99]] ++ be16 1) .client) := by
      simpa [tSeen] using e
    exact ⟨s1, rfl, fun w s2 h => nearest_always (z := []) tRoot_fixed hr hs rfl ⟨by unfold LabelsOk; decide, by decide⟩ rfl (List.nil_suffix) h⟩

/-! ### What goes wrong -/

/-- The same referral as in `tReferPacket`, but the name of the zone is written `V.c.`. -/
def tReferUp : List UInt8 :=
  [0, 7, 0x84, 0, 0, 1, 0, 0, 0, 1, 0, 1, 1, 120, 1, 118, 1, 99, 0, 0, 1, 0, 1,
   1, 86, 0xc0, 16, 0, 2, 0, 1, 0, 0, 1, 44, 0, 2, 0xc0, 14,
   0xc0, 14, 0, 1, 0, 1, 0, 0, 0, 120, 0, 4, 6, 6, 6, 6]

/-- **C111.** The name of a zone that is referred to is kept in the letter case of the packet, and looked up in lower case: the servers of
`V.c.` answer the question at hand, but the next question for `v.c.` starts at the root again. -/
theorem upper_forgotten :
    tSeen (run tCfg [] tBegin [.start 0 tAsk, .send 0 tWire, .receive 0 (tFill tReferUp) 55 [(tWire, 1)], .receive 0 (tFill tAnswerPacket) 39 [],
      .start 5 (encName [[121], [118], [99]] ++ be16 1), .send 5 tWire]) 5 =
    some ([⟨tAsk, (⟨[⟨tQ, 1, [0, 1], 300, [], [], [1, 2, 3, 4]⟩], [], [], 0⟩ : Answers).packed.enc, false⟩,
        ⟨encName [[86], [99]] ++ be16 65395, referral (encName [[86], [99]]) [[1, 6, 6, 6, 6]], false⟩, ⟨encName [] ++ be16 65395, tRoot, true⟩],
      some ⟨encName [[121], [118], [99]] ++ be16 1, some ⟨7, [9, 9, 9, 9], tRoot⟩, some tRoot, false, none, none, 1, .client⟩) := by
  decide +kernel

end Trust
end Dw
