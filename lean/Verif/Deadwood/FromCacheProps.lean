import Verif.Deadwood.FromCacheRun
/-!
# Answering from the cache: properties (C92–C96)

All theorems are about a cache of any size up to 32000 entries, made at start-up with any entries that
stay for ever (`marks`: the block list and the like), and any events (`Fit`) after that: questions of
clients, and calls other parts of Deadwood make.
-/

namespace Dw
namespace FromCache
open Spec Cachespec Reply
open Spec (Cache Entry)

/-- The cache after start-up: what has been added for ever, and room for the rest. -/
structure Started (hf : List UInt8 → Nat) (cs n : Nat) (marks : List (List UInt8 × List UInt8)) (h : Hash) : Prop where
  small : (Hash.init cs n).max + marks.length ≤ 32000
  vals : ∀ x ∈ marks, Storable x.2
  run : ∃ outs, (Hash.init cs n).run hf (marks.map fun x => HOp.pin 0 x.1 x.2) = .ok (outs, h)

/-- There is such a cache. -/
theorem started_exists (hf : List UInt8 → Nat) (cs n : Nat) (marks : List (List UInt8 × List UInt8))
    (h1 : (Hash.init cs n).max + marks.length ≤ 32000) (h2 : ∀ x ∈ marks, Storable x.2) :
    ∃ h, Started hf cs n marks h := by
  obtain ⟨outs, h, c, es, ps, e, -⟩ := start_run (hf := hf) cs n marks h1
  exact ⟨h, h1, h2, outs, e⟩

theorem Started.spec {hf : List UInt8 → Nat} {cs n : Nat} {marks : List (List UInt8 × List UInt8)} {h : Hash}
    (S : Started hf cs n marks h) : ∃ c es ps, Hash.Rel hf (Hash.init cs n).mask h c es ps ∧ Inv c ∧
      c.cap = (Hash.init cs n).max ∧ c.lru = [] ∧ (∀ e ∈ c.perm, (e.key, e.val) ∈ marks) ∧
      (∀ x ∈ marks, (Cache.find c.perm x.1).isSome) ∧ c.perm.length ≤ marks.length := by
  obtain ⟨outs, h', c, es, ps, e, R, B, K, hcap, hlru, hm, hm2, hm3⟩ := start_run (hf := hf) cs n marks S.small
  obtain ⟨outs', e'⟩ := S.run
  rw [e] at e'; cases e'
  exact ⟨c, es, ps, R, ⟨K, B, Or.inr hlru, by simp [hlru], fun e he => S.vals _ (hm e he)⟩, hcap, hlru, hm, hm2, hm3⟩

/-- No mark of the block list is there or comes there for this key. -/
def NeverMarked (k : List UInt8) (marks : List (List UInt8 × List UInt8)) (evs : List Event) : Prop :=
  (∀ x ∈ marks, x.1 = k → x.2.getLast? ≠ some 24) ∧ ∀ ev ∈ evs, NoMark k ev

theorem unmarked_start {k : List UInt8} {marks : List (List UInt8 × List UInt8)} {evs : List Event}
    (h : NeverMarked k marks evs) {c : Cache} (hl : c.lru = []) (hm : ∀ e ∈ c.perm, (e.key, e.val) ∈ marks) : Unmarked k c := by
  refine ⟨fun e he => ?_, fun e he => ?_⟩
  · rw [hl] at he; simp [Cache.find] at he
  · obtain ⟨h1, h2⟩ := find_some_mem he
    exact h.1 _ (hm e h1) h2

theorem NeverMarked.left {k : List UInt8} {marks : List (List UInt8 × List UInt8)} {a b : List Event}
    (h : NeverMarked k marks (a ++ b)) : NeverMarked k marks a := ⟨h.1, fun x hx => h.2 x (by simp [hx])⟩

theorem perm_none {k : List UInt8} {marks : List (List UInt8 × List UInt8)} {c : Cache}
    (hm : ∀ e ∈ c.perm, (e.key, e.val) ∈ marks) (h : ∀ x ∈ marks, x.1 ≠ k) : Cache.find c.perm k = none := by
  rw [find_eq_none]
  exact fun e he => h _ (hm e he)

/-- Nothing seen, nothing sent. -/
theorem ask_nothing {cfg : Cfg} {now : Int} (hn : 0 ≤ now) {a : Ask} {qn : List (List UInt8)} {t : Nat} (W : WellAsked a qn t)
    {c : Cache} (I : Inv c) (hp : Cache.find c.perm (keyOf qn t) = none)
    (hl : ∀ e, Cache.find c.lru (keyOf qn t) = some e → a.resurrect = false ∧ Cache.fresh now e = false)
    (hu : t = 28 → Unmarked (keyOf qn 1) c) :
    ∃ o c', (reply cfg now a).spec c = some (o, c') ∧ o.sent = none ∧
      (a.client = true → ¬ (t = 15 ∧ cfg.rejectMx ≠ 0) → o = fail) := by
  cases hc : a.client with
  | false =>
    exact ⟨fail, c, by unfold reply; simp [hc, Prog.spec], rfl, fun _ _ => rfl⟩
  | true =>
    obtain ⟨q, hq, hqc, e⟩ := reply_eq (cfg := cfg) (now := now) W hc I
    rw [e]
    split
    · next h => exact ⟨_, c, rfl, rfl, fun _ h' => absurd h h'⟩
    · split
      · next h28 =>
        rw [if_neg (unmarked_seen (hu h28) now a.resurrect)]
        obtain ⟨l1, l2, l3, l4⟩ := look_inv I now (keyOf qn 1) a.resurrect
        obtain ⟨c', g⟩ := found_nothing (cfg := cfg) hn (a := a) l2 (q := q) (by rw [hqc, l3.perm]; exact hp)
          (by rw [hqc, l4]; exact hl)
        exact ⟨fail, c', g, rfl, fun _ _ => rfl⟩
      · obtain ⟨c', g⟩ := found_nothing (cfg := cfg) hn (a := a) I (q := q) (by rw [hqc]; exact hp) (by rw [hqc]; exact hl)
        exact ⟨fail, c', g, rfl, fun _ _ => rfl⟩

/-- **C92.** An answer `p` is put into the cache for the question `qn`, `t` at the time `t0` with a lifetime of
`ttl` seconds, at most a year.  After that, any questions of clients and any other calls follow that do not
put something else there or remove it.  Then, a client asks the question (letters may be in another case)
before the answer has expired.  The client gets a whole message with its ID, its question and the records of the
answer, with the time to live that is left, and in the order that follows from how often the question was asked
since then.  If the cache had no room for all keys, the answer may be gone; then nothing is sent. -/
theorem kept_answer_is_given {hf : List UInt8 → Nat} {cs n : Nat} {marks : List (List UInt8 × List UInt8)} {h0 : Hash}
    (S : Started hf cs n marks h0) (cfg : Cfg) {pre mid : List Event} {t0 ttl now : Int} {p : Answers}
    {qn : List (List UInt8)} {t : Nat} {a : Ask} (hfit : ∀ ev ∈ pre ++ mid, Fit ev) (ht0 : 0 ≤ t0) (httl : 0 < ttl)
    (hyear : ttl ≤ 31536000) (W : WellAsked a qn t) (hclient : a.client = true) (htcp : a.tcp = none)
    (hfree : ∀ x ∈ marks, x.1 ≠ keyOf qn t) (P : Plain cfg qn t p)
    (hsize : (p.all.map Rec.room).sum + (encName qn).length + 16 < 515)
    (hmid : ∀ ev ∈ mid, Leaves (keyOf qn t) (t0 + max 30 ttl * 256) ev)
    (h28 : t = 28 → NeverMarked (keyOf qn 1) marks (pre ++ mid))
    (hlo : t0 ≤ now) (hhi : now ≤ t0 + max 30 ttl * 256) :
    ∃ os o h, session hf cfg (pre ++ .op (.put t0 (keyOf qn t) p.packed.enc ttl) :: (mid ++ [.ask now a])) h0 =
        .ok (os ++ [o], h) ∧
      (o = fail ∧ (Hash.init cs n).max ≤ (putKeys pre ++ keyOf qn t :: putKeys mid).dedup.length + marks.length ∨
       ∃ (bytes : List UInt8) (m : Msg), o = ⟨1, some (.udp bytes)⟩ ∧ m.Is bytes ∧
        Carries m ⟨a.id, W.id⟩ qn t (p.given (cfg.chain == 1) (cfg.age == 1) (asksFor (keyOf qn t) mid + 1)
          ((t0 + max 30 ttl * 256 - now) / 256).toNat)) := by
  obtain ⟨c0, es, ps, R, I0, hcap, hlru, hm, -, hml⟩ := S.spec
  obtain ⟨os1, c1, e1, I1, p1, q1, k1⟩ := session_fit cfg pre I0 (fun x hx => hfit x (by simp [hx]))
    (ks := putKeys pre ++ keyOf qn t :: putKeys mid) (by simp [hlru]) (fun x hx => by simp [hx])
  have hp1 : Cache.find c1.perm (keyOf qn t) = none := by rw [p1]; exact perm_none hm hfree
  have hfop : Fit (.op (.put t0 (keyOf qn t) p.packed.enc ttl)) := by
    refine ⟨ht0, ?_⟩
    rintro _ _ _ _ ⟨⟩
    exact storable_enc P.ok.packed (by rw [DwStr.packed_all]; simpa using P.ok.some)
  have I2 := op_inv I1 hfop
  -- the answer is put there
  obtain ⟨c2, hc2⟩ : ∃ c2, c1.put t0 (keyOf qn t) p.packed.enc ttl = some c2 := by
    unfold Cache.put
    rw [if_neg (by omega), if_neg (by simp [hp1])]
    exact ⟨_, rfl⟩
  have hstep : (step c1 (.put t0 (keyOf qn t) p.packed.enc ttl)).2 = c2 := by simp [step, hc2]
  rw [hstep] at I2
  have hk2 : ∀ e ∈ c2.lru, e.key ∈ putKeys pre ++ keyOf qn t :: putKeys mid := by
    rw [← hstep]
    exact op_keys I1 hfop.1 k1 (by simp [putKeys])
  have hexp : c1.expiry t0 (keyOf qn t) ttl = t0 + max 30 ttl * 256 := by
    unfold Cache.expiry Cache.clampTtl
    rw [if_neg (by omega)]
    omega
  obtain ⟨-, p2, f2, -⟩ := put_find I1.kn (Or.inl httl) hc2
  have q2 : c2.cap = c1.cap := by
    have := hc2
    unfold Cache.put at this
    rw [if_neg (by omega), if_neg (by simp [hp1])] at this
    cases this
    exact (trim_sub _).2.2
  have hK : Kept cfg (keyOf qn t) (t0 + max 30 ttl * 256) p 0 c2 ∨
      Cache.find c2.lru (keyOf qn t) = none ∧
        c2.cap ≤ (putKeys pre ++ keyOf qn t :: putKeys mid).dedup.length + c2.perm.length := by
    cases hf2 : Cache.find c2.lru (keyOf qn t) with
    | some e =>
      left
      refine ⟨none, by simp, ?_⟩
      rw [hf2, f2 e hf2, hexp]
      have : order cfg 0 p = p := by unfold order; split <;> rfl
      simp [maybeTtl, this]
    | none =>
      right
      refine ⟨rfl, ?_⟩
      have hput := hc2
      unfold Cache.put at hput
      rw [if_neg (by omega), if_neg (by simp [hp1])] at hput
      cases hput
      by_cases hfull : c1.cap ≤ (Cache.without c1.lru (keyOf qn t)).length + 1 + c1.perm.length
      · have hnd : (keyOf qn t :: (Cache.without c1.lru (keyOf qn t)).map Entry.key).Nodup := by
          simpa using nodup_cons_without I1.kn.nd ⟨keyOf qn t, [], 0⟩
        have hle := nodup_len (ks := putKeys pre ++ keyOf qn t :: putKeys mid) hnd (by
          intro x hx
          rcases List.mem_cons.1 hx with rfl | hx
          · simp
          · obtain ⟨e, he, rfl⟩ := List.mem_map.1 hx
            exact k1 e (mem_without.1 he).1)
        simp only [List.length_cons, List.length_map] at hle
        rw [p2, q2]; omega
      · rw [Cache.trim, if_neg (by simp only [List.length_cons]; omega), find_cons, if_pos rfl] at hf2
        cases hf2
  have hu1 : t = 28 → Unmarked (keyOf qn 1) c1 := fun h =>
    session_unmarked cfg (keyOf qn 1) pre I0 (fun x hx => hfit x (by simp [hx])) (unmarked_start (h28 h) hlru hm)
      (h28 h).left.2 e1
  have hu2 : t = 28 → Unmarked (keyOf qn 1) c2 := by
    intro h
    rw [← hstep]
    refine unmarked_op I1 (hu1 h) hfop.1 (fun hk => ?_)
    exact absurd hk (keys_differ W.type (by omega) (by omega))
  obtain ⟨os3, c3, e3, I3, u3, p3, q3, k3, K3⟩ := session_kept W.type P (E := t0 + max 30 ttl * 256)
    (ks := putKeys pre ++ keyOf qn t :: putKeys mid) mid I2 (fun x hx => hfit x (by simp [hx])) hmid hu2
    (fun h x hx => (h28 h).2 x (by simp [hx])) (by rw [p2]; exact hp1) hk2 (fun x hx => by simp [hx]) hK
  have hp3 : Cache.find c3.perm (keyOf qn t) = none := by rw [p3, p2]; exact hp1
  have hfin : ∃ o c4, (reply cfg now a).spec c3 = some (o, c4) ∧
      (o = fail ∧ (Hash.init cs n).max ≤ (putKeys pre ++ keyOf qn t :: putKeys mid).dedup.length + marks.length ∨
       ∃ (bytes : List UInt8) (m : Msg), o = ⟨1, some (.udp bytes)⟩ ∧ m.Is bytes ∧
        Carries m ⟨a.id, W.id⟩ qn t (p.given (cfg.chain == 1) (cfg.age == 1) (asksFor (keyOf qn t) mid + 1)
          ((t0 + max 30 ttl * 256 - now) / 256).toNat)) := by
    rcases K3 with K3 | ⟨K3, hfull⟩
    · obtain ⟨o, c4, g1, -, g2⟩ := ask_kept (cfg := cfg) (by omega) W hclient I3 hp3 P K3 hhi (by omega) u3
      refine ⟨o, c4, g1, Or.inr ?_⟩
      rw [Nat.zero_add] at g2
      exact g2 hsize htcp
    · obtain ⟨o, c4, g1, -, g2⟩ := ask_nothing (cfg := cfg) (now := now) (by omega) W I3 hp3
        (fun e he => by rw [K3] at he; cases he) u3
      refine ⟨o, c4, g1, Or.inl ⟨g2 hclient P.mx, ?_⟩⟩
      rw [← hcap, ← q1, ← q2]
      have : c2.perm.length ≤ marks.length := by rw [p2, p1]; exact hml
      omega
  obtain ⟨o, c4, e4, g⟩ := hfin
  have hall : sessionS cfg (pre ++ .op (.put t0 (keyOf qn t) p.packed.enc ttl) :: (mid ++ [.ask now a])) c0 =
      some (os1 ++ os3 ++ [o], c4) := by
    rw [sessionS_append, e1]
    simp only [Option.bind_some, sessionS, hstep]
    rw [sessionS_append, e3]
    simp [sessionS, e4]
  obtain ⟨h', es', ps', e5, -⟩ := session_run cfg _ R I0.book (by
    intro ev hev
    rcases List.mem_append.1 hev with h | h
    · exact (hfit ev (by simp [h])).calm
    · rcases List.mem_cons.1 h with rfl | h
      · exact ht0
      · rcases List.mem_append.1 h with h | h
        · exact (hfit ev (by simp [h])).calm
        · rw [List.mem_singleton.1 h]
          show (0 : Int) ≤ now
          omega) hall
  exact ⟨os1 ++ os3, o, h', e5, g⟩

/-- When an entry expires that is put into the cache with this lifetime: not before 30 seconds, and not
later than after two years. -/
def expires (t0 ttl : Int) : Int := t0 + max 30 (min ttl 63072000) * 256

/-- The entries for a key, over events that do not touch it, keep their time of expiry. -/
theorem session_expiry (cfg : Cfg) (k : List UInt8) (E : Int) : ∀ (evs : List Event) {c : Cache} (_ : Inv c)
    (_ : ∀ ev ∈ evs, Fit ev) (_ : ∀ o, Event.op o ∈ evs → touches k o = false)
    (_ : ∀ e, Cache.find c.lru k = some e → e.expire = E) {os : List Outcome} {c' : Cache}
    (_ : sessionS cfg evs c = some (os, c')), ∀ e, Cache.find c'.lru k = some e → e.expire = E := by
  intro evs
  induction evs with
  | nil => intro c _ _ _ hu os c' h; cases h; exact hu
  | cons ev evs ih =>
    intro c I hf ht hu os c' h
    have hf0 := hf ev (by simp)
    have hf1 := fun x hx => hf x (List.mem_cons_of_mem _ hx)
    have ht1 := fun x hx => ht x (List.mem_cons_of_mem _ hx)
    cases ev with
    | ask now a =>
      obtain ⟨hn, qn', t', W⟩ := hf0
      obtain ⟨o, c1, e1, I1, O1, T1⟩ := reply_tends (cfg := cfg) hn W I
      rw [sessionS, e1, Option.bind_some, Option.map_eq_some_iff] at h
      obtain ⟨⟨os1, c2⟩, e2, h⟩ := h
      cases h
      refine ih I1 hf1 ht1 ?_ e2
      intro e he
      by_cases hk : k = keyOf qn' t'
      · rw [hk] at he
        obtain ⟨e0, g1, g2, -⟩ := T1 e he
        rw [g2]; exact hu e0 (by rw [hk]; exact g1)
      · rw [O1.others k hk] at he; exact hu e he
    | op o =>
      refine ih (op_inv I hf0) hf1 ht1 ?_ h
      obtain ⟨-, -, h3⟩ := op_keeps I hf0.1 (ht o (by simp))
      intro e he
      rcases h3 with h3 | ⟨h3, -⟩
      · rw [h3] at he; exact hu e he
      · rw [h3] at he; cases he

theorem calm_all {evs : List Event} (h : ∀ ev ∈ evs, Fit ev) : ∀ ev ∈ evs, CalmEvent ev := fun ev hev => (h ev hev).calm

/-- **C93.** Whatever was put into the cache for a question, once its time is over no client gets it any more
(unless expired entries are asked for). -/
theorem expired_is_not_given {hf : List UInt8 → Nat} {cs n : Nat} {marks : List (List UInt8 × List UInt8)} {h0 : Hash}
    (S : Started hf cs n marks h0) (cfg : Cfg) {pre mid : List Event} {t0 ttl now : Int} {v : List UInt8}
    {qn : List (List UInt8)} {t : Nat} {a : Ask} (hfit : ∀ ev ∈ pre ++ mid, Fit ev) (ht0 : 0 ≤ t0) (httl : 0 < ttl)
    (hv : Storable v) (W : WellAsked a qn t) (hfree : ∀ x ∈ marks, x.1 ≠ keyOf qn t)
    (hmid : ∀ o, Event.op o ∈ mid → touches (keyOf qn t) o = false)
    (h28 : t = 28 → NeverMarked (keyOf qn 1) marks (pre ++ mid))
    (hres : a.resurrect = false) (hlate : expires t0 ttl < now) :
    ∃ os o h, session hf cfg (pre ++ .op (.put t0 (keyOf qn t) v ttl) :: (mid ++ [.ask now a])) h0 = .ok (os ++ [o], h) ∧
      o.sent = none := by
  obtain ⟨c0, es, ps, R, I0, hcap, hlru, hm, -, hml⟩ := S.spec
  obtain ⟨os1, c1, e1, I1, p1, q1, -⟩ := session_fit cfg pre I0 (fun x hx => hfit x (by simp [hx]))
    (ks := putKeys pre) (by simp [hlru]) (fun x hx => hx)
  have hp1 : Cache.find c1.perm (keyOf qn t) = none := by rw [p1]; exact perm_none hm hfree
  have hfop : Fit (.op (.put t0 (keyOf qn t) v ttl)) := by
    refine ⟨ht0, ?_⟩
    rintro _ _ _ _ ⟨⟩
    exact hv
  have I2 := op_inv I1 hfop
  obtain ⟨c2, hc2⟩ : ∃ c2, c1.put t0 (keyOf qn t) v ttl = some c2 := by
    unfold Cache.put
    rw [if_neg (by omega), if_neg (by simp [hp1])]
    exact ⟨_, rfl⟩
  have hstep : (step c1 (.put t0 (keyOf qn t) v ttl)).2 = c2 := by simp [step, hc2]
  rw [hstep] at I2
  have hexp : c1.expiry t0 (keyOf qn t) ttl = expires t0 ttl := by
    unfold Cache.expiry Cache.clampTtl expires
    rw [if_neg (by omega)]
  obtain ⟨-, p2, f2, -⟩ := put_find I1.kn (Or.inl httl) hc2
  obtain ⟨os3, c3, e3, I3, p3, -, -⟩ := session_fit cfg mid I2 (fun x hx => hfit x (by simp [hx]))
    (ks := c2.lru.map Entry.key ++ putKeys mid) (fun e he => by simp; left; exact ⟨e, he, rfl⟩)
    (fun x hx => by simp [hx])
  have hE := session_expiry cfg (keyOf qn t) (expires t0 ttl) mid I2 (fun x hx => hfit x (by simp [hx])) hmid
    (fun e he => by rw [f2 e he, hexp]) e3
  have hu3 : t = 28 → Unmarked (keyOf qn 1) c3 := by
    intro h
    have u1 := session_unmarked cfg (keyOf qn 1) pre I0 (fun x hx => hfit x (by simp [hx]))
      (unmarked_start (h28 h) hlru hm) (h28 h).left.2 e1
    have u2 : Unmarked (keyOf qn 1) c2 := by
      rw [← hstep]
      exact unmarked_op I1 u1 hfop.1 (fun hk => absurd hk (keys_differ W.type (by omega) (by omega)))
    exact session_unmarked cfg (keyOf qn 1) mid I2 (fun x hx => hfit x (by simp [hx])) u2
      (fun x hx => (h28 h).2 x (by simp [hx])) e3
  have hn : 0 ≤ now := by unfold expires at hlate; omega
  obtain ⟨o, c4, e4, g, -⟩ := ask_nothing (cfg := cfg) hn W I3 (by rw [p3, p2]; exact hp1) (fun e he => by
    refine ⟨hres, ?_⟩
    have := hE e he
    simp only [Cache.fresh, Bool.and_eq_false_iff, decide_eq_false_iff_not]
    left; omega) hu3
  have hall : sessionS cfg (pre ++ .op (.put t0 (keyOf qn t) v ttl) :: (mid ++ [.ask now a])) c0 =
      some (os1 ++ os3 ++ [o], c4) := by
    rw [sessionS_append, e1]
    simp only [Option.bind_some, sessionS, hstep]
    rw [sessionS_append, e3]
    simp [sessionS, e4]
  obtain ⟨h', es', ps', e5, -⟩ := session_run cfg _ R I0.book (by
    intro ev hev
    rcases List.mem_append.1 hev with h | h
    · exact (hfit ev (by simp [h])).calm
    · rcases List.mem_cons.1 h with rfl | h
      · exact ht0
      · rcases List.mem_append.1 h with h | h
        · exact (hfit ev (by simp [h])).calm
        · rw [List.mem_singleton.1 h]
          exact hn) hall
  exact ⟨os1 ++ os3, o, h', e5, g⟩

/-- **C94.** A question nothing was ever put into the cache for is not answered from it, whatever else is kept. -/
theorem never_kept_never_given {hf : List UInt8 → Nat} {cs n : Nat} {marks : List (List UInt8 × List UInt8)} {h0 : Hash}
    (S : Started hf cs n marks h0) (cfg : Cfg) {evs : List Event} {now : Int}
    {qn : List (List UInt8)} {t : Nat} {a : Ask} (hfit : ∀ ev ∈ evs, Fit ev) (hn : 0 ≤ now) (W : WellAsked a qn t)
    (hfree : ∀ x ∈ marks, x.1 ≠ keyOf qn t) (hnone : keyOf qn t ∉ putKeys evs)
    (h28 : t = 28 → NeverMarked (keyOf qn 1) marks evs) :
    ∃ os o h, session hf cfg (evs ++ [.ask now a]) h0 = .ok (os ++ [o], h) ∧ o.sent = none := by
  obtain ⟨c0, es, ps, R, I0, hcap, hlru, hm, -, hml⟩ := S.spec
  obtain ⟨os1, c1, e1, I1, p1, q1, k1⟩ := session_fit cfg evs I0 hfit (ks := putKeys evs) (by simp [hlru]) (fun x hx => hx)
  obtain ⟨o, c2, e2, g, -⟩ := ask_nothing (cfg := cfg) hn W I1 (by rw [p1]; exact perm_none hm hfree) (fun e he => by
    obtain ⟨g1, g2⟩ := find_some_mem he
    exact absurd (g2 ▸ k1 e g1) hnone) (fun h => session_unmarked cfg _ evs I0 hfit (unmarked_start (h28 h) hlru hm) (h28 h).2 e1)
  obtain ⟨h', es', ps', e5, -⟩ := session_run cfg (evs ++ [.ask now a]) R I0.book (by
    intro ev hev
    rcases List.mem_append.1 hev with h | h
    · exact (hfit ev h).calm
    · rw [List.mem_singleton.1 h]
      exact hn) (os := os1 ++ [o]) (c' := c2) (by rw [sessionS_append, e1]; simp [sessionS, e2])
  exact ⟨os1, o, h', e5, g⟩

/-- **C95.** Any questions of clients and any other calls: there is no undefined behaviour, and all go
through. -/
theorem session_never_fails {hf : List UInt8 → Nat} {cs n : Nat} {marks : List (List UInt8 × List UInt8)} {h0 : Hash}
    (S : Started hf cs n marks h0) (cfg : Cfg) {evs : List Event} (hfit : ∀ ev ∈ evs, Fit ev) :
    ∃ os h, session hf cfg evs h0 = .ok (os, h) := by
  obtain ⟨c0, es, ps, R, I0, hcap, hlru, hm, -, hml⟩ := S.spec
  obtain ⟨os1, c1, e1, -⟩ := session_fit cfg evs I0 hfit (ks := putKeys evs) (by simp [hlru]) (fun x hx => hx)
  obtain ⟨h', es', ps', e5, -⟩ := session_run cfg evs R I0.book (calm_all hfit) e1
  exact ⟨os1, h', e5⟩

/-- What a lookup finds in the abstract cache is determined by the two entries for the key. -/
theorem seen_congr {c c' : Cache} {k : List UInt8} (h1 : Cache.find c'.perm k = Cache.find c.perm k)
    (h2 : Cache.find c'.lru k = Cache.find c.lru k) (now : Int) (b : Bool) : seen c' now k b = seen c now k b := by
  unfold seen
  rw [h1, h2]

/-- **C95.** A question changes nothing of what is kept for other questions. -/
theorem ask_leaves_others {hf : List UInt8 → Nat} {cs n : Nat} {marks : List (List UInt8 × List UInt8)} {h0 h : Hash}
    (S : Started hf cs n marks h0) (cfg : Cfg) {evs : List Event} (hfit : ∀ ev ∈ evs, Fit ev) {os : List Outcome}
    (hrun : session hf cfg evs h0 = .ok (os, h)) {now : Int} (hn : 0 ≤ now) {a : Ask} {qn : List (List UInt8)} {t : Nat}
    (W : WellAsked a qn t) :
    ∃ o h', session hf cfg [.ask now a] h = .ok ([o], h') ∧
      ∀ k' ≠ keyOf qn t, ∀ (now' : Int) (b : Bool), (h'.get hf now' k' b 1).1 = (h.get hf now' k' b 1).1 := by
  obtain ⟨c0, es, ps, R, I0, hcap, hlru, hm, -, hml⟩ := S.spec
  obtain ⟨os1, c1, e1, I1, -⟩ := session_fit cfg evs I0 hfit (ks := putKeys evs) (by simp [hlru]) (fun x hx => hx)
  obtain ⟨h1, es', ps', e5, R1, B1⟩ := session_run cfg evs R I0.book (calm_all hfit) e1
  rw [hrun] at e5; cases e5
  obtain ⟨o, c2, e2, I2, O2, T2⟩ := reply_tends (cfg := cfg) hn W I1
  obtain ⟨h2, es2, ps2, e6, R2, B2⟩ := session_run cfg [.ask now a] R1 B1 (by simpa [CalmEvent] using hn)
    (os := [o]) (c' := c2) (by simp [sessionS, e2])
  refine ⟨o, h2, e6, fun k' hk now' b => ?_⟩
  rw [(Hash.get_look R2 (short_of R2 B2) now' k' b).1, (Hash.get_look R1 (short_of R1 B1) now' k' b).1,
    (look_inv I2 now' k' b).1, (look_inv I1 now' k' b).1]
  exact seen_congr (by rw [O2.perm]) (O2.others k' hk) now' b

/-- **C96.** A name on the block list: questions for its IPv4 address and for its IPv6 address get the same
answer, that there is nothing, whatever happened before. -/
theorem blocked_name_is_refused {hf : List UInt8 → Nat} {cs n : Nat} {marks : List (List UInt8 × List UInt8)} {h0 : Hash}
    (S : Started hf cs n marks h0) (cfg : Cfg) {evs : List Event} {now : Int}
    {qn : List (List UInt8)} {t : Nat} {a : Ask} (hfit : ∀ ev ∈ evs, Fit ev) (hn : 0 ≤ now) (W : WellAsked a qn t)
    (ht : t = 1 ∨ t = 28) (hclient : a.client = true) (htcp : a.tcp = none) (hc : NoCtl qn)
    (hmark : ∃ x ∈ marks, x.1 = keyOf qn 1) (hmarks : ∀ x ∈ marks, x.1 = keyOf qn 1 → x.2.getLast? = some 24)
    (h : Header) (c0 c1 : UInt8) (extra junk : List UInt8)
    (hpkt : a.packet = some (h.enc ++ (encName qn ++ (be16 t ++ [c0, c1] ++ (extra ++ junk))),
      12 + (encName qn).length + 4 + extra.length)) :
    ∃ os h', session hf cfg (evs ++ [.ask now a]) h0 = .ok (os ++
      [⟨1, some (.synth ((h.refusal.enc ++ encName qn ++ (be16 t ++ [c0, c1]) ++ soaNone).map some))⟩], h') := by
  obtain ⟨s0, es, ps, R, I0, hcap, hlru, hm, hm2, hml⟩ := S.spec
  obtain ⟨os1, s1, e1, I1, p1, q1, k1⟩ := session_fit cfg evs I0 hfit (ks := putKeys evs) (by simp [hlru]) (fun x hx => hx)
  obtain ⟨x, hx, hxk⟩ := hmark
  obtain ⟨e, he⟩ := Option.isSome_iff_exists.1 (hxk ▸ hm2 x hx)
  have he1 : Cache.find s1.perm (keyOf qn 1) = some e := by rw [p1]; exact he
  obtain ⟨g1, g2⟩ := find_some_mem he
  have h24 : e.val.getLast? = some 24 := hmarks _ (hm e g1) g2
  have href : ∀ s : Cache, (refuse a).spec s = some (⟨1, some (.synth ((h.refusal.enc ++ encName qn ++
      (be16 t ++ [c0, c1]) ++ soaNone).map some))⟩, s) := by
    intro s
    unfold refuse
    rw [htcp, hpkt]
    simp only
    have hs := W.short
    have := SR.blocklist_exact h W.labels hc (by omega) (UInt8.ofNat (t / 256)) (UInt8.ofNat t) c0 c1 extra junk
    have hb : be16 t ++ [c0, c1] = [UInt8.ofNat (t / 256), UInt8.ofNat t, c0, c1] := rfl
    rw [hb, attempt_gives (show Gives _ (some _) from this)]
    rfl
  have hreply : (reply cfg now a).spec s1 = some (⟨1, some (.synth ((h.refusal.enc ++ encName qn ++
      (be16 t ++ [c0, c1]) ++ soaNone).map some))⟩, s1) := by
    obtain ⟨q, hq, hqc, er⟩ := reply_eq (cfg := cfg) (now := now) W hclient I1
    rw [er, if_neg (by omega)]
    rcases ht with rfl | rfl
    · rw [if_neg (by omega)]
      unfold found
      rw [Prog.spec_bind, hqc, process_perm I1 he1, Option.bind_some]
      simp only [look, Prog.spec, step, look_perm he1]
      rw [attempt_gives (last_gives (I1.perm e (find_some_mem he1).1).1), h24]
      simp only [Option.map_some]
      exact href s1
    · rw [if_pos rfl, look_perm he1]
      have : seen s1 now (keyOf qn 1) a.resurrect = some e.val := by
        rw [← (look_inv I1 now (keyOf qn 1) a.resurrect).1, look_perm he1]
      rw [this, if_pos (by simp [Marked, h24])]
      exact href s1
  obtain ⟨h', es', ps', e5, -⟩ := session_run cfg (evs ++ [.ask now a]) R I0.book (by
    intro ev hev
    rcases List.mem_append.1 hev with h | h
    · exact (hfit ev h).calm
    · rw [List.mem_singleton.1 h]
      exact hn) (c' := s1) (by rw [sessionS_append, e1]; simp only [sessionS, hreply, Option.bind_some, Option.map_some]; rfl)
  exact ⟨os1, h', e5⟩

/-- **C96.** The block list is of no use for questions over TCP: `tcp_process_query` (DwTcpSocket.c:278) gives no
address of the client, and then no entry of the cache is looked at.  The outcome is that of a question that is
not in the cache, which is sent upstream; nothing is changed. -/
theorem tcp_is_never_answered {hf : List UInt8 → Nat} {cs n : Nat} {marks : List (List UInt8 × List UInt8)} {h0 : Hash}
    (S : Started hf cs n marks h0) (cfg : Cfg) {evs : List Event} {now : Int} {a : Ask} (hfit : ∀ ev ∈ evs, Fit ev)
    (htcp : a.client = false) :
    ∃ os h, session hf cfg evs h0 = .ok (os, h) ∧ session hf cfg (evs ++ [.ask now a]) h0 = .ok (os ++ [fail], h) := by
  obtain ⟨os, h, e⟩ := session_never_fails S cfg hfit
  refine ⟨os, h, e, ?_⟩
  have hr : ∀ x, (reply cfg now a).run hf x = .ok (fail, x) := fun x => by unfold reply; simp [htcp, Prog.run]
  have key : ∀ (l : List Event) (x : Hash) {os : List Outcome} {y : Hash}, session hf cfg l x = .ok (os, y) →
      session hf cfg (l ++ [.ask now a]) x = .ok (os ++ [fail], y) := by
    intro l
    induction l with
    | nil => intro x os y hx; cases hx; simp [session, hr]
    | cons ev l ih =>
      intro x os y hx
      cases ev with
      | ask now' a' =>
        simp only [List.cons_append, session] at hx ⊢
        cases h1 : (reply cfg now' a').run hf x with
        | err => rw [h1] at hx; cases hx
        | ub => rw [h1] at hx; cases hx
        | ok z =>
          rw [h1, Res.ok_bind] at hx
          cases h2 : session hf cfg l z.2 with
          | err => rw [h2] at hx; cases hx
          | ub => rw [h2] at hx; cases hx
          | ok w =>
            rw [h2, Res.ok_bind] at hx
            cases hx
            rw [Res.ok_bind, ih z.2 h2]; rfl
      | op o =>
        simp only [List.cons_append, session] at hx ⊢
        cases h1 : x.step hf o with
        | err => rw [h1] at hx; cases hx
        | ub => rw [h1] at hx; cases hx
        | ok z =>
          rw [h1, Res.ok_bind] at hx
          rw [Res.ok_bind, ih z.2 hx]
  exact key evs h0 e

end FromCache
end Dw
