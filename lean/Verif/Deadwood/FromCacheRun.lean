import Verif.Deadwood.FromCacheSession
/-!
# What a session does to one entry
-/

namespace Dw
namespace FromCache
open Spec Cachespec Reply
open Spec (Cache Entry)

/-- Any events: there is an outcome, and the cache stays in order. -/
theorem session_fit (cfg : Cfg) : ∀ (evs : List Event) {c : Cache} (_ : Inv c) (_ : ∀ ev ∈ evs, Fit ev)
    {ks : List (List UInt8)} (_ : ∀ e ∈ c.lru, e.key ∈ ks) (_ : ∀ x ∈ putKeys evs, x ∈ ks),
    ∃ os c', sessionS cfg evs c = some (os, c') ∧ Inv c' ∧ c'.perm = c.perm ∧ c'.cap = c.cap ∧
      ∀ e ∈ c'.lru, e.key ∈ ks := by
  intro evs
  induction evs with
  | nil => intro c I _ ks hk _; exact ⟨[], c, rfl, I, rfl, rfl, hk⟩
  | cons ev evs ih =>
    intro c I hf ks hk hp
    have hf0 := hf ev (by simp)
    have hf1 := fun x hx => hf x (List.mem_cons_of_mem _ hx)
    cases ev with
    | ask now a =>
      obtain ⟨hn, qn, t, W⟩ := hf0
      obtain ⟨o, c1, e1, I1, O1, T1⟩ := reply_tends (cfg := cfg) hn W I
      obtain ⟨os, c2, e2, I2, p2, q2, k2⟩ := ih I1 hf1 (ask_keys O1 T1 hk) (fun x hx => hp x hx)
      exact ⟨o :: os, c2, by simp [sessionS, e1, e2], I2, p2.trans O1.perm, q2.trans O1.cap, k2⟩
    | op o =>
      have hc := hf0.1
      have hk1 : ∀ e ∈ (step c o).2.lru, e.key ∈ ks := by
        refine op_keys I hc hk (fun x hx => hp x ?_)
        cases o <;> simp [putKeys] at hx ⊢
        exact Or.inl hx
      have hp1 : ∀ x ∈ putKeys evs, x ∈ ks := by
        intro x hx
        refine hp x ?_
        cases o <;> simp [putKeys, hx]
      obtain ⟨os, c2, e2, I2, p2, q2, k2⟩ := ih (op_inv I hf0) hf1 hk1 hp1
      have hpc : (step c o).2.perm = c.perm ∧ (step c o).2.cap = c.cap := by
        cases o with
        | put now k v t =>
          simp only [step]
          cases hpp : c.put now k v t with
          | none => exact ⟨rfl, rfl⟩
          | some c' =>
            simp only
            unfold Cache.put at hpp
            split at hpp
            · cases hpp; exact ⟨rfl, rfl⟩
            · split at hpp
              · cases hpp
              · cases hpp
                exact (trim_sub _).2
        | pin now k v => exact hc.elim
        | look now k b => exact ⟨(look_inv I now k b).2.2.1.perm, (look_inv I now k b).2.2.1.cap⟩
        | ttl now k => exact ⟨rfl, rfl⟩
        | drop k => exact ⟨(drop_inv I k).2.1.perm, (drop_inv I k).2.1.cap⟩
      exact ⟨os, c2, by simp [sessionS, e2], I2, p2.trans hpc.1, q2.trans hpc.2, k2⟩

/-- No mark of the block list in the cache for this key. -/
def Unmarked (k : List UInt8) (c : Cache) : Prop :=
  (∀ e, Cache.find c.lru k = some e → e.val.getLast? ≠ some 24) ∧
  (∀ e, Cache.find c.perm k = some e → e.val.getLast? ≠ some 24)

/-- The event does not put such a mark there. -/
def NoMark (k : List UInt8) : Event → Prop
  | .op (.put _ k' v _) => k' = k → v.getLast? ≠ some 24
  | _ => True

theorem unmarked_seen {k : List UInt8} {c : Cache} (h : Unmarked k c) (now : Int) (b : Bool) : ¬ Marked (seen c now k b) := by
  unfold Marked seen
  cases hp : Cache.find c.perm k with
  | some e => exact h.2 e hp
  | none =>
    cases hl : Cache.find c.lru k with
    | none => simp
    | some e =>
      simp only
      split
      · exact h.1 e hl
      · simp

theorem unmarked_ask {k k' : List UInt8} {c c' : Cache} (h : Unmarked k c) (O : Only k' c c')
    (T : ∀ e', Cache.find c'.lru k' = some e' →
      ∃ e, Cache.find c.lru k' = some e ∧ e'.expire = e.expire ∧ e'.val.getLast? = e.val.getLast?) : Unmarked k c' := by
  refine ⟨fun e he => ?_, fun e he => h.2 e (by rw [← O.perm]; exact he)⟩
  by_cases hk : k = k'
  · subst hk
    obtain ⟨e0, g1, -, g2⟩ := T e he
    rw [g2]; exact h.1 e0 g1
  · rw [O.others k hk] at he; exact h.1 e he

theorem unmarked_op {k : List UInt8} {c : Cache} (I : Inv c) (h : Unmarked k c) {o : HOp} (hc : CalmOp o)
    (hm : NoMark k (.op o)) : Unmarked k (step c o).2 := by
  by_cases ht : touches k o = false
  · obtain ⟨h1, h2, h3⟩ := op_keeps I hc ht
    refine ⟨fun e he => ?_, fun e he => h.2 e (by rw [← h1]; exact he)⟩
    rcases h3 with h3 | ⟨h3, -⟩
    · rw [h3] at he; exact h.1 e he
    · rw [h3] at he; cases he
  · cases o with
    | put now k' v t =>
      have hk : k' = k := by simpa [touches] using ht
      subst hk
      simp only [step]
      cases hp : c.put now k' v t with
      | none => exact h
      | some c' =>
        by_cases h0 : 0 < t ∨ t = -2
        · obtain ⟨g1, g2, g3, -⟩ := put_find I.kn h0 hp
          refine ⟨fun e he => ?_, fun e he => h.2 e (by rw [← g2]; exact he)⟩
          rw [g3 e he]
          exact hm rfl
        · rw [put_skip h0] at hp; cases hp; exact h
    | pin now k' v => exact hc.elim
    | look now k' b => simp [touches] at ht
    | ttl now k' => simp [touches] at ht
    | drop k' =>
      have hk : k' = k := by simpa [touches] using ht
      subst hk
      obtain ⟨d1, d2, d3⟩ := drop_inv I k'
      exact ⟨fun e he => h.1 e (d3 e he), fun e he => h.2 e (by rw [← d2.perm]; exact he)⟩

/-! ## One answer over time -/

/-- The answer with the time to live `o`, if there is one. -/
def maybeTtl (o : Option Nat) (p : Answers) : Answers := match o with | some t => p.withTtl t | none => p

/-- The order after `n` times. -/
def order (cfg : Cfg) (n : Nat) (p : Answers) : Answers := if cfg.chain = 1 then p.turnedBy n else p

/-- The answer `p` is kept until `E`, and it has been given `n` times. -/
def Kept (cfg : Cfg) (k : List UInt8) (E : Int) (p : Answers) (n : Nat) (c : Cache) : Prop :=
  ∃ o : Option Nat, (∀ x, o = some x → cfg.age = 1 ∧ x < 4294967296) ∧
    Cache.find c.lru k = some ⟨k, (maybeTtl o (order cfg n p)).packed.enc, E⟩

theorem turnedBy_ok {p : Answers} (h : AnsOk p) : ∀ n, AnsOk (p.turnedBy n) ∧
    ((p.turnedBy n).all.map Rec.room).sum = (p.all.map Rec.room).sum := by
  intro n
  induction n with
  | zero => exact ⟨h, rfl⟩
  | succ n ih =>
    have := turned_ok ih.1
    exact ⟨this.1, this.2.trans ih.2⟩

theorem order_ok (cfg : Cfg) {p : Answers} (h : AnsOk p) (n : Nat) : AnsOk (order cfg n p) ∧
    ((order cfg n p).all.map Rec.room).sum = (p.all.map Rec.room).sum := by
  unfold order
  split
  · exact turnedBy_ok h n
  · exact ⟨h, rfl⟩

/-- Giving an answer once more. -/
theorem renewed_next (cfg : Cfg) (s n : Nat) (o : Option Nat) (p : Answers) (ho : ∀ x, o = some x → cfg.age = 1 ∧ x < 4294967296) :
    renewedA cfg s (maybeTtl o (order cfg n p)) =
      if cfg.age = 1 then (order cfg (n + 1) p).withTtl (agedTtl s) else order cfg (n + 1) p := by
  have hord : (if cfg.chain = 1 then (order cfg n p).turned else order cfg n p) = order cfg (n + 1) p := by
    unfold order
    split
    · rfl
    · rfl
  unfold renewedA
  by_cases ha : cfg.age = 1
  · simp only [ha, if_true]
    have e : (maybeTtl o (order cfg n p)).withTtl (agedTtl s) = (order cfg n p).withTtl (agedTtl s) := by
      cases o with
      | none => rfl
      | some t => exact withTtl_withTtl _ _ _
    rw [e, turned_withTtl, ← hord]
    split <;> rfl
  · simp only [ha, if_false]
    cases o with
    | none => exact hord
    | some t => exact absurd (ho t rfl).1 ha

/-- The question is one for the entry `k`. -/
def AsksFor (k : List UInt8) : Event → Bool
  | .ask _ a => a.client && (keyAsked a == k)
  | _ => false

/-- How often the question was asked. -/
def asksFor (k : List UInt8) (evs : List Event) : Nat := (evs.filter (AsksFor k)).length

/-- What other events may happen while an answer is kept for `k` until `E`: nothing else is put there and
nothing is removed; it is only asked for in the last year of its life. -/
def Leaves (k : List UInt8) (E : Int) : Event → Prop
  | .ask now a => AsksFor k (.ask now a) = true → now ≤ E ∧ E - now < 31536001 * 256
  | .op o => touches k o = false

/-- Hypotheses about the question. -/
structure Plain (cfg : Cfg) (qn : List (List UInt8)) (t : Nat) (p : Answers) : Prop where
  ok : AnsOk p
  room : (p.all.map Rec.room).sum ≤ 450
  mx : ¬ (t = 15 ∧ cfg.rejectMx ≠ 0)

theorem same_key {qn qn' : List (List UInt8)} {t t' : Nat} (ht : t < 65536) (ht' : t' < 65536)
    (h : keyOf qn t = keyOf qn' t') : t = t' ∧ keyOf qn 1 = keyOf qn' 1 := by
  unfold keyOf at *
  obtain ⟨h1, h2⟩ := List.append_inj' h rfl
  constructor
  · simp only [be16, List.cons.injEq, and_true] at h2
    have h3 := congrArg UInt8.toNat h2.1
    have h4 := congrArg UInt8.toNat h2.2
    simp at h3 h4
    omega
  · rw [h1]

/-- One question for an answer that is kept. -/
theorem ask_kept {cfg : Cfg} {now : Int} (hn : 0 ≤ now) {a : Ask} {qn : List (List UInt8)} {t : Nat} (W : WellAsked a qn t)
    (hc : a.client = true) {c : Cache} (I : Inv c) (hperm : Cache.find c.perm (keyOf qn t) = none) {E : Int} {p : Answers}
    (P : Plain cfg qn t p) {n : Nat} (K : Kept cfg (keyOf qn t) E p n c) (hE : now ≤ E) (hy : E - now < 31536001 * 256)
    (hu : t = 28 → Unmarked (keyOf qn 1) c) :
    ∃ o c', (reply cfg now a).spec c = some (o, c') ∧ Kept cfg (keyOf qn t) E p (n + 1) c' ∧
      ((p.all.map Rec.room).sum + (encName qn).length + 16 < 515 → a.tcp = none →
        ∃ (bytes : List UInt8) (m : Msg), o = ⟨1, some (.udp bytes)⟩ ∧ m.Is bytes ∧
          Carries m ⟨a.id, W.id⟩ qn t
            (p.given (cfg.chain == 1) (cfg.age == 1) (n + 1) ((E - now) / 256).toNat)) := by
  obtain ⟨o, ho, hl⟩ := K
  obtain ⟨q, hq, hqc, e⟩ := reply_eq (cfg := cfg) (now := now) W hc I
  have hA : AnsOk (maybeTtl o (order cfg n p)) ∧
      ((maybeTtl o (order cfg n p)).all.map Rec.room).sum = (p.all.map Rec.room).sum := by
    have h1 := order_ok cfg P.ok n
    cases o with
    | none => exact h1
    | some x =>
      have h2 := withTtl_ok h1.1 (ho x rfl).2
      exact ⟨h2.1, h2.2.trans h1.2⟩
  have hroom := P.room
  have hfresh : Cache.fresh now ⟨keyOf qn t, (maybeTtl o (order cfg n p)).packed.enc, E⟩ = true := by
    simp only [Cache.fresh, Bool.and_eq_true, decide_eq_true_eq]
    constructor <;> omega
  have key : ∀ c0 : Cache, Inv c0 → Cache.find c0.perm (keyOf qn t) = none →
      Cache.find c0.lru (keyOf qn t) = some ⟨keyOf qn t, (maybeTtl o (order cfg n p)).packed.enc, E⟩ →
      ∃ o c', (found cfg now a q).spec c0 = some (o, c') ∧ Kept cfg (keyOf qn t) E p (n + 1) c' ∧
      ((p.all.map Rec.room).sum + (encName qn).length + 16 < 515 → a.tcp = none →
        ∃ (bytes : List UInt8) (m : Msg), o = ⟨1, some (.udp bytes)⟩ ∧ m.Is bytes ∧
          Carries m ⟨a.id, W.id⟩ qn t
            (p.given (cfg.chain == 1) (cfg.age == 1) (n + 1) ((E - now) / 256).toNat)) := by
    intro c0 I0 hp0 hl0
    obtain ⟨out, c', f1, f2, f3⟩ := found_answer (cfg := cfg) hn W I0 hq hqc hp0 hl0 hfresh hy hA.1 rfl (by omega)
    simp only [renewed_next cfg _ n o p ho] at f2 f3
    have hgiven : (if cfg.age = 1 then (order cfg (n + 1) p).withTtl (agedTtl ((E - now) / 256).toNat)
        else order cfg (n + 1) p) = p.given (cfg.chain == 1) (cfg.age == 1) (n + 1) ((E - now) / 256).toNat := by
      have : agedTtl ((E - now) / 256).toNat = max 5 ((E - now) / 256).toNat := by
        unfold agedTtl
        rw [Nat.mod_eq_of_lt]; omega
      rw [this]
      unfold Answers.given order
      simp
    refine ⟨out, c', f1, ?_, ?_⟩
    · by_cases ha : cfg.age = 1
      · refine ⟨some (agedTtl ((E - now) / 256).toNat), ?_, ?_⟩
        · rintro x ⟨⟩; exact ⟨ha, agedTtl_lt _⟩
        · rw [f2, if_pos ha]; rfl
      · refine ⟨none, by simp, ?_⟩
        rw [f2, if_neg ha]; rfl
    · rw [← hgiven, ← hA.2]
      exact f3
  rw [e, if_neg P.mx]
  split
  · next h28 =>
    obtain ⟨l1, l2, l3, l4⟩ := look_inv I now (keyOf qn 1) a.resurrect
    rw [if_neg (unmarked_seen (hu h28) now a.resurrect)]
    exact key _ l2 (by rw [l3.perm]; exact hperm) (by rw [l4]; exact hl)
  · exact key c I hperm hl

/-- The answer is kept over any events that leave it alone, unless there was no room. -/
theorem session_kept {cfg : Cfg} {qn : List (List UInt8)} {t : Nat} (ht : t < 65536) {p : Answers} (P : Plain cfg qn t p)
    {E : Int} {ks : List (List UInt8)} : ∀ (evs : List Event) {c : Cache} (_ : Inv c) (_ : ∀ ev ∈ evs, Fit ev)
    (_ : ∀ ev ∈ evs, Leaves (keyOf qn t) E ev) (_ : t = 28 → Unmarked (keyOf qn 1) c)
    (_ : t = 28 → ∀ ev ∈ evs, NoMark (keyOf qn 1) ev) (_ : Cache.find c.perm (keyOf qn t) = none)
    (_ : ∀ e ∈ c.lru, e.key ∈ ks) (_ : ∀ x ∈ putKeys evs, x ∈ ks) {n : Nat}
    (_ : Kept cfg (keyOf qn t) E p n c ∨
      Cache.find c.lru (keyOf qn t) = none ∧ c.cap ≤ ks.dedup.length + c.perm.length),
    ∃ os c', sessionS cfg evs c = some (os, c') ∧ Inv c' ∧ (t = 28 → Unmarked (keyOf qn 1) c') ∧
      c'.perm = c.perm ∧ c'.cap = c.cap ∧ (∀ e ∈ c'.lru, e.key ∈ ks) ∧
      (Kept cfg (keyOf qn t) E p (n + asksFor (keyOf qn t) evs) c' ∨
        Cache.find c'.lru (keyOf qn t) = none ∧ c.cap ≤ ks.dedup.length + c.perm.length) := by
  intro evs
  induction evs with
  | nil => intro c I _ _ hu _ _ hk _ n K; exact ⟨[], c, rfl, I, hu, rfl, rfl, hk, K⟩
  | cons ev evs ih =>
    intro c I hf hlv hu hm hpn hk hp n K
    have hf0 := hf ev (by simp)
    have hf1 := fun x hx => hf x (List.mem_cons_of_mem _ hx)
    have hl0 := hlv ev (by simp)
    have hl1 := fun x hx => hlv x (List.mem_cons_of_mem _ hx)
    have hm1 : t = 28 → ∀ ev ∈ evs, NoMark (keyOf qn 1) ev := fun h x hx => hm h x (List.mem_cons_of_mem _ hx)
    cases ev with
    | ask now a =>
      obtain ⟨hn, qn', t', W⟩ := hf0
      obtain ⟨o, c1, e1, I1, O1, T1⟩ := reply_tends (cfg := cfg) hn W I
      have hu1 : t = 28 → Unmarked (keyOf qn 1) c1 := fun h => unmarked_ask (hu h) O1 T1
      have hk1 := ask_keys O1 T1 hk
      have hpn1 : Cache.find c1.perm (keyOf qn t) = none := by rw [O1.perm]; exact hpn
      have hka := keyAsked_eq W
      have K1 : Kept cfg (keyOf qn t) E p (n + asksFor (keyOf qn t) [.ask now a]) c1 ∨
          Cache.find c1.lru (keyOf qn t) = none ∧ c1.cap ≤ ks.dedup.length + c1.perm.length := by
        rw [O1.perm, O1.cap]
        by_cases hkk : keyOf qn t = keyOf qn' t'
        · rcases K with K | ⟨K, hfull⟩
          · cases hcl : a.client with
            | false =>
              have : (reply cfg now a).spec c = some (fail, c) := by unfold reply; simp [hcl, Prog.spec]
              rw [this] at e1; cases e1
              left
              simpa [asksFor, AsksFor, hcl] using K
            | true =>
              obtain ⟨htt, h1⟩ := same_key ht W.type hkk
              subst htt
              have hasks : AsksFor (keyOf qn t) (.ask now a) = true := by
                simp [AsksFor, hcl, hka, hkk]
              obtain ⟨hE, hy⟩ := hl0 hasks
              rw [hkk] at K hpn
              obtain ⟨o', c1', f1, f2, -⟩ := ask_kept (cfg := cfg) hn W hcl I hpn ⟨P.ok, P.room, P.mx⟩ K hE hy
                (fun h => by rw [← h1]; exact hu h)
              rw [f1] at e1; cases e1
              left
              have : asksFor (keyOf qn t) [.ask now a] = 1 := by simp [asksFor, hasks]
              rw [this, hkk]; exact f2
          · right
            refine ⟨?_, hfull⟩
            cases hx : Cache.find c1.lru (keyOf qn t) with
            | none => rfl
            | some e =>
              rw [hkk] at hx
              obtain ⟨e0, g, -⟩ := T1 e hx
              rw [← hkk, K] at g; cases g
        · have hno : asksFor (keyOf qn t) [.ask now a] = 0 := by
            have : AsksFor (keyOf qn t) (.ask now a) = false := by
              simp only [AsksFor, hka, Bool.and_eq_false_iff]
              right
              simpa using fun h => hkk h.symm
            simp [asksFor, this]
          rw [hno]
          unfold Kept
          rw [O1.others _ hkk]
          exact K
      obtain ⟨os, c2, e2, I2, u2, p2, q2, k2, K2⟩ := ih I1 hf1 hl1 hu1 hm1 hpn1 hk1 (fun x hx => hp x hx) K1
      refine ⟨o :: os, c2, by simp [sessionS, e1, e2], I2, u2, p2.trans O1.perm, q2.trans O1.cap, k2, ?_⟩
      rw [O1.perm, O1.cap, Nat.add_assoc] at K2
      have : asksFor (keyOf qn t) (.ask now a :: evs) = asksFor (keyOf qn t) [.ask now a] + asksFor (keyOf qn t) evs := by
        simp only [asksFor, List.filter_cons, List.filter_nil]
        split <;> simp [Nat.add_comm]
      rw [this]; exact K2
    | op o =>
      have hc := hf0.1
      obtain ⟨k1, k2, k3⟩ := op_keeps I hc hl0
      have hpo : ∀ x ∈ putKeys [.op o], x ∈ ks := by
        intro x hx
        refine hp x ?_
        cases o <;> simp [putKeys] at hx ⊢
        exact Or.inl hx
      have hk1 := op_keys I hc hk hpo
      have hp1 : ∀ x ∈ putKeys evs, x ∈ ks := by
        intro x hx
        refine hp x ?_
        cases o <;> simp [putKeys, hx]
      have K1 : Kept cfg (keyOf qn t) E p n (step c o).2 ∨
          Cache.find (step c o).2.lru (keyOf qn t) = none ∧ (step c o).2.cap ≤ ks.dedup.length + (step c o).2.perm.length := by
        rw [k1, k2]
        rcases k3 with k3 | ⟨k3, now, k', v, tt, rfl, hfull⟩
        · unfold Kept; rw [k3]; exact K
        · right
          refine ⟨k3, ?_⟩
          have hnd : (k' :: (Cache.without c.lru k').map Entry.key).Nodup := by
            have := nodup_cons_without I.kn.nd ⟨k', v, 0⟩
            simpa using this
          have hle := nodup_len (ks := ks) hnd (by
            intro x hx
            rcases List.mem_cons.1 hx with rfl | hx
            · exact hpo _ (by simp [putKeys])
            · obtain ⟨e, he, rfl⟩ := List.mem_map.1 hx
              exact hk e (mem_without.1 he).1)
          simp only [List.length_cons, List.length_map] at hle
          omega
      obtain ⟨os, c2, e2, I2, u2, p2, q2, k2', K2⟩ := ih (op_inv I hf0) hf1 hl1
        (fun h => unmarked_op I (hu h) hc (hm h _ (by simp))) hm1 (by rw [k1]; exact hpn) hk1 hp1 K1
      refine ⟨os, c2, by simp [sessionS, e2], I2, u2, p2.trans k1, q2.trans k2, k2', ?_⟩
      rw [k1, k2] at K2
      have : asksFor (keyOf qn t) (.op o :: evs) = asksFor (keyOf qn t) evs := by simp [asksFor, AsksFor]
      rw [this]; exact K2

/-- Marks of the block list over any events. -/
theorem session_unmarked (cfg : Cfg) (k : List UInt8) : ∀ (evs : List Event) {c : Cache} (_ : Inv c) (_ : ∀ ev ∈ evs, Fit ev)
    (_ : Unmarked k c) (_ : ∀ ev ∈ evs, NoMark k ev) {os : List Outcome} {c' : Cache}
    (_ : sessionS cfg evs c = some (os, c')), Unmarked k c' := by
  intro evs
  induction evs with
  | nil => intro c _ _ hu _ os c' h; cases h; exact hu
  | cons ev evs ih =>
    intro c I hf hu hm os c' h
    have hf0 := hf ev (by simp)
    have hf1 := fun x hx => hf x (List.mem_cons_of_mem _ hx)
    have hm1 := fun x hx => hm x (List.mem_cons_of_mem _ hx)
    cases ev with
    | ask now a =>
      obtain ⟨hn, qn', t', W⟩ := hf0
      obtain ⟨o, c1, e1, I1, O1, T1⟩ := reply_tends (cfg := cfg) hn W I
      simp only [sessionS, e1, Option.bind_some, Option.map_eq_some_iff] at h
      obtain ⟨⟨os1, c2⟩, h, e⟩ := h
      cases e
      exact ih I1 hf1 (unmarked_ask hu O1 T1) hm1 h
    | op o => exact ih (op_inv I hf0) hf1 (unmarked_op I hu hf0.1 (hm _ (by simp))) hm1 h

end FromCache
end Dw
