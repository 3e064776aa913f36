import Verif.Deadwood.FromCacheReply
/-!
# Many questions and other calls
-/

namespace Dw
namespace FromCache
open Spec Cachespec Reply
open Spec (Cache Entry)

theorem put_back {s : DwStr} (h : Usable s) {n : List UInt8} {x : Nat} (hc : s.contents = n ++ be16 x) (hl : n.length ≤ 300)
    (v : Nat) : ∃ s', s.putU16 v (-3) = .ok s' ∧ Usable s' ∧ s'.contents = n ++ be16 v := by
  have hlen : s.contents.length = n.length + 2 := by rw [hc]; simp [be16_length]
  have hsl : s.len = n.length + 2 := by rw [← h.clen, hlen]
  obtain ⟨s', e, u, -, hc'⟩ := putU16_in h v n.length (by omega) (by omega)
  refine ⟨s', ?_, u, ?_⟩
  · rw [← e]
    unfold DwStr.putU16
    have : (s.len : Int) + -3 + 1 = n.length := by omega
    simp only [show ((-3 : Int) < 0) by omega, if_true, this, show ¬ ((n.length : Int) < 0) by omega, if_false]
  · rw [hc', hc]
    simp [be16]

theorem asks_for {a : Ask} {qn : List (List UInt8)} {t : Nat} (W : WellAsked a qn t) :
    ∃ q, (fetched a.query).lowerCase = .ok q ∧ Usable q ∧ q.contents = keyOf qn t ∧ q.fetchU16 (-1) = .ok t := by
  obtain ⟨u1, u2⟩ := asked_usable W
  obtain ⟨q, e1, e2, -, e4⟩ := DwStr.lowerCase_exact u1 W.labels (rest := be16 t) u2
  refine ⟨q, e1, e2, e4, ?_⟩
  have hl : q.contents.length = (encName (qn.map (List.map lower))).length + 2 := by rw [e4]; simp [be16_length]
  have h := (fetchU16_in e2 (encName (qn.map (List.map lower))).length (by omega)).2
  rw [show ((-1 : Int)) = ((encName (qn.map (List.map lower))).length : Int) - q.contents.length + 1 by omega, h]
  have ht := W.type
  simp only [e4]
  simp [be16]
  omega

/-- The value is the mark of the block list. -/
def Marked (v : Option (List UInt8)) : Prop := v.bind List.getLast? = some 24

instance (v : Option (List UInt8)) : Decidable (Marked v) := inferInstanceAs (Decidable (_ = _))

theorem reply_eq {cfg : Cfg} {now : Int} {a : Ask} {qn : List (List UInt8)} {t : Nat} (W : WellAsked a qn t)
    (hc : a.client = true) {c : Cache} (I : Inv c) : ∃ q, Usable q ∧ q.contents = keyOf qn t ∧
      (reply cfg now a).spec c =
        if t = 15 ∧ cfg.rejectMx ≠ 0 then some (⟨1, none⟩, c)
        else if t = 28 then
          if Marked (seen c now (keyOf qn 1) a.resurrect) then (refuse a).spec (c.look now (keyOf qn 1) a.resurrect).2
          else (found cfg now a q).spec (c.look now (keyOf qn 1) a.resurrect).2
        else (found cfg now a q).spec c := by
  obtain ⟨q, e1, e2, e3, e4⟩ := asks_for W
  unfold reply
  simp only [hc, Bool.not_true, Bool.false_eq_true, if_false]
  rw [attempt_gives (show Gives _ (some q) from e1)]
  simp only [Option.getD_some]
  rw [attempt_gives (show Gives _ (some t) from e4)]
  by_cases h15 : t = 15 ∧ cfg.rejectMx ≠ 0
  · refine ⟨q, e2, e3, ?_⟩
    rw [if_pos h15, if_pos (by simpa using h15)]
    rfl
  · simp only [Option.some.injEq]
    rw [if_neg h15]
    by_cases h28 : t = 28
    · have hs := W.short
      have hll := lower_length qn
      obtain ⟨q1, f1, f2, f3⟩ := put_back e2 e3 (by rw [hll]; omega) 1
      obtain ⟨q2, g1, g2, g3⟩ := put_back f2 f3 (by rw [hll]; omega) 28
      refine ⟨q2, g2, by rw [g3, h28]; rfl, ?_⟩
      rw [if_pos h28, if_neg h15, if_pos h28]
      rw [attempt_gives (show Gives _ (some q1) from f1)]
      simp only [look, Prog.spec, step]
      have hk : q1.contents = keyOf qn 1 := f3
      rw [hk]
      obtain ⟨l1, -, -, -⟩ := look_inv I now (keyOf qn 1) a.resurrect
      rw [l1]
      refine (congrArg (fun p : Prog Outcome => p.spec (c.look now (keyOf qn 1) a.resurrect).2) (attempt_gives
        (o := (seen c now (keyOf qn 1) a.resurrect).bind fun v => v.getLast?.map UInt8.toNat) ?_ _)).trans ?_
      · cases hs : seen c now (keyOf qn 1) a.resurrect with
        | none => rfl
        | some v => exact last_gives (seen_storable I hs).1
      rw [attempt_gives (show Gives _ (some q2) from g1)]
      have hiff : (((seen c now (keyOf qn 1) a.resurrect).bind fun v => v.getLast?.map UInt8.toNat) = some 24) ↔
          Marked (seen c now (keyOf qn 1) a.resurrect) := by
        unfold Marked
        cases seen c now (keyOf qn 1) a.resurrect with
        | none => simp
        | some v =>
          cases hv : v.getLast? with
          | none => simp [hv]
          | some x =>
            simp only [Option.bind_some, hv, Option.map_some, Option.some.injEq]
            constructor
            · intro h; exact UInt8.toNat_inj.1 h
            · intro h; rw [h]; rfl
      simp only [hiff]
      split <;> rfl
    · refine ⟨q, e2, e3, ?_⟩
      rw [if_neg (by simpa using h28), if_neg (by simpa using h15), if_neg h28]

theorem keys_differ {qn : List (List UInt8)} {t u : Nat} (ht : t < 65536) (hu : u < 65536) (h : t ≠ u) : keyOf qn t ≠ keyOf qn u := by
  intro e
  have := List.append_cancel_left e
  simp only [be16, List.cons.injEq, and_true] at this
  obtain ⟨h1, h2⟩ := this
  have h1 := congrArg UInt8.toNat h1
  have h2 := congrArg UInt8.toNat h2
  simp at h1 h2
  omega

theorem Tends.of_look {k k' : List UInt8} {p : Prog Outcome} {c : Cache} {now : Int} {b : Bool} (I : Inv c)
    (h : Tends k p (c.look now k' b).2) :
    ∃ o c', p.spec (c.look now k' b).2 = some (o, c') ∧ Inv c' ∧ Only k c c' ∧
    ∀ e', Cache.find c'.lru k = some e' →
      ∃ e, Cache.find c.lru k = some e ∧ e'.expire = e.expire ∧ e'.val.getLast? = e.val.getLast? := by
  obtain ⟨l1, l2, l3, l4⟩ := look_inv I now k' b
  exact h.after ⟨l3.cap, l3.perm, fun x _ => l4 x⟩ (fun e' he' => ⟨e', by rw [← l4]; exact he', rfl, rfl⟩)

/-- No question does any harm: something is the outcome, the cache stays in order, and at most the entry
for this very question is changed. -/
theorem reply_tends {cfg : Cfg} {now : Int} (hn : 0 ≤ now) {a : Ask} {qn : List (List UInt8)} {t : Nat}
    (W : WellAsked a qn t) {c : Cache} (I : Inv c) : Tends (keyOf qn t) (reply cfg now a) c := by
  cases hc : a.client with
  | false =>
    unfold reply
    simp only [hc]
    exact ⟨fail, c, rfl, I, Only.refl _ _, fun e he => ⟨e, he, rfl, rfl⟩⟩
  | true =>
    obtain ⟨q, hq, hqc, e⟩ := reply_eq (cfg := cfg) (now := now) W hc I
    unfold Tends
    rw [e]
    split
    · exact ⟨_, c, rfl, I, Only.refl _ _, fun e he => ⟨e, he, rfl, rfl⟩⟩
    · split
      · obtain ⟨l1, l2, l3, l4⟩ := look_inv I now (keyOf qn 1) a.resurrect
        split
        · obtain ⟨o, ho⟩ := refuse_works W (c.look now (keyOf qn 1) a.resurrect).2
          exact ⟨o, _, ho, l2, ⟨l3.cap, l3.perm, fun x _ => l4 x⟩, fun e he => ⟨e, by rw [← l4]; exact he, rfl, rfl⟩⟩
        · have := found_works (cfg := cfg) hn W l2 hq
          rw [hqc] at this
          exact this.of_look I
      · have := found_works (cfg := cfg) hn W I hq
        rw [hqc] at this
        exact this

/-- Events the theorems are about. -/
def Fit : Event → Prop
  | .ask now a => 0 ≤ now ∧ ∃ qn t, WellAsked a qn t
  | .op o => CalmOp o ∧ ∀ now k v t, o = .put now k v t → Storable v

theorem Fit.calm {ev : Event} (h : Fit ev) : CalmEvent ev := by
  cases ev with
  | ask now a => exact h.1
  | op o => exact h.1

/-- The key of what a client asks for. -/
def keyAsked (a : Ask) : List UInt8 := lowerName a.query.length a.query

theorem keyAsked_eq {a : Ask} {qn : List (List UInt8)} {t : Nat} (W : WellAsked a qn t) : keyAsked a = keyOf qn t := by
  rw [keyAsked, W.query, asked]
  exact DwStr.lowerName_enc qn (be16 t) _ W.labels (Nat.le_refl _)

theorem op_inv {c : Cache} (I : Inv c) {o : HOp} (h : Fit (.op o)) : Inv (step c o).2 := by
  obtain ⟨h1, h2⟩ := h
  cases o with
  | put now k v t =>
    simp only [step]
    cases hp : c.put now k v t with
    | none => exact I
    | some c' => exact put_inv I h1 (h2 now k v t rfl) hp
  | pin now k v => exact h1.elim
  | look now k b => exact (look_inv I now k b).2.1
  | ttl now k => exact I
  | drop k => exact (drop_inv I k).1

/-- A call that does not touch the entry for `k`: the entry stays as it is, unless there is no room. -/
theorem op_keeps {c : Cache} (I : Inv c) {o : HOp} (h : CalmOp o) {k : List UInt8} (ht : touches k o = false) :
    (step c o).2.perm = c.perm ∧ (step c o).2.cap = c.cap ∧
    (Cache.find (step c o).2.lru k = Cache.find c.lru k ∨
      Cache.find (step c o).2.lru k = none ∧ ∃ now k' v t, o = .put now k' v t ∧
        c.cap ≤ (Cache.without c.lru k').length + 1 + c.perm.length) := by
  cases o with
  | put now k' v t =>
    have hne : k ≠ k' := by
      intro e; simp [touches, e] at ht
    simp only [step]
    cases hp : c.put now k' v t with
    | none => exact ⟨rfl, rfl, Or.inl rfl⟩
    | some c' =>
      simp only
      have hp0 := hp
      unfold Cache.put at hp
      split at hp
      · cases hp; exact ⟨rfl, rfl, Or.inl rfl⟩
      · next hpos =>
        split at hp
        · cases hp
        · have hfull : Cache.find ({ c with lru := ⟨k', v, c.expiry now k' t⟩ :: Cache.without c.lru k' } : Cache).lru k =
              Cache.find c.lru k := by
            simp only
            rw [find_cons, if_neg (fun e => hne e.symm), find_without, if_neg hne]
          obtain ⟨s1, s2, s3⟩ := trim_sub { c with lru := ⟨k', v, c.expiry now k' t⟩ :: Cache.without c.lru k' }
          cases hp
          refine ⟨s2, s3, ?_⟩
          by_cases hc : c.cap ≤ (Cache.without c.lru k').length + 1 + c.perm.length
          · cases hf : Cache.find (Cache.trim { c with lru := ⟨k', v, c.expiry now k' t⟩ :: Cache.without c.lru k' }).lru k with
            | none => exact Or.inr ⟨rfl, now, k', v, t, rfl, hc⟩
            | some e =>
              have := find_sublist s1 (nodup_cons_without I.kn.nd _) hf
              left
              rw [← this, hfull]
          · left
            rw [Cache.trim, if_neg (by simp only [List.length_cons]; omega), hfull]
  | pin now k' v => exact h.elim
  | look now k' b => exact ⟨(look_find c now k' b k).2, (look_inv I now k' b).2.2.1.cap, Or.inl (look_find c now k' b k).1⟩
  | ttl now k' => exact ⟨rfl, rfl, Or.inl rfl⟩
  | drop k' =>
    have hne : k ≠ k' := by
      intro e; simp [touches, e] at ht
    obtain ⟨d1, d2, d3⟩ := drop_inv I k'
    exact ⟨d2.perm, d2.cap, Or.inl (d2.others k hne)⟩

/-- The keys something is put under. -/
def putKeys : List Event → List (List UInt8)
  | [] => []
  | .op (.put _ k _ _) :: es => k :: putKeys es
  | _ :: es => putKeys es

theorem mem_find {l : List Entry} {k : List UInt8} : (∃ e ∈ l, e.key = k) ↔ (Cache.find l k).isSome := by
  constructor
  · rintro ⟨e, h1, h2⟩
    by_contra h
    rw [Option.not_isSome_iff_eq_none, find_eq_none] at h
    exact h e h1 h2
  · intro h
    obtain ⟨e, he⟩ := Option.isSome_iff_exists.1 h
    exact ⟨e, (find_some_mem he).1, (find_some_mem he).2⟩

theorem op_keys {c : Cache} (I : Inv c) {o : HOp} (h : CalmOp o) {ks : List (List UInt8)}
    (hk : ∀ e ∈ c.lru, e.key ∈ ks) (hp : ∀ x ∈ putKeys [.op o], x ∈ ks) : ∀ e ∈ (step c o).2.lru, e.key ∈ ks := by
  intro e he
  by_cases ht : touches e.key o = false
  · have hs := (mem_find (l := (step c o).2.lru) (k := e.key)).1 ⟨e, he, rfl⟩
    rcases (op_keeps I h ht).2.2 with h1 | ⟨h1, -⟩
    · rw [h1, ← mem_find] at hs
      obtain ⟨x, hx, hxk⟩ := hs
      rw [← hxk]; exact hk x hx
    · rw [h1] at hs; cases hs
  · cases o with
    | put now k v t =>
      simp [touches] at ht
      rw [← ht]; exact hp k (by simp [putKeys])
    | pin now k v => exact h.elim
    | look now k b => simp [touches] at ht
    | ttl now k => simp [touches] at ht
    | drop k =>
      simp [touches] at ht
      have hs := (mem_find (l := (step c (.drop k)).2.lru) (k := e.key)).1 ⟨e, he, rfl⟩
      obtain ⟨x, hx⟩ := Option.isSome_iff_exists.1 hs
      rw [← ht] at hx
      have := (drop_inv I k).2.2 x hx
      obtain ⟨g1, g2⟩ := find_some_mem this
      rw [← ht, ← g2]; exact hk x g1

theorem ask_keys {c c' : Cache} {k : List UInt8} (O : Only k c c')
    (h : ∀ e', Cache.find c'.lru k = some e' →
      ∃ e, Cache.find c.lru k = some e ∧ e'.expire = e.expire ∧ e'.val.getLast? = e.val.getLast?)
    {ks : List (List UInt8)} (hk : ∀ e ∈ c.lru, e.key ∈ ks) : ∀ e ∈ c'.lru, e.key ∈ ks := by
  intro e he
  have hs := (mem_find (l := c'.lru) (k := e.key)).1 ⟨e, he, rfl⟩
  have : (Cache.find c.lru e.key).isSome := by
    by_cases hek : e.key = k
    · obtain ⟨x, hx⟩ := Option.isSome_iff_exists.1 hs
      rw [hek] at hx
      obtain ⟨y, hy, -⟩ := h x hx
      rw [hek, hy]; rfl
    · rw [O.others _ hek] at hs; exact hs
  rw [← mem_find] at this
  obtain ⟨x, hx, hxk⟩ := this
  rw [← hxk]; exact hk x hx

end FromCache
end Dw
