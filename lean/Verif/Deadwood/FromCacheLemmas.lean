import Verif.Deadwood.FromCacheSim
import Verif.Deadwood.DnsStr3Props
import Verif.Deadwood.CompressSafe
import Verif.Deadwood.ReplyMessageProps
/-!
# What answering from the cache does to the cache
-/

namespace Dw
namespace FromCache
open Spec Cachespec
open Spec (Cache Entry)
open DwStr (ofBytes ofBytes_usable ofBytes_contents)

/-! ## Strings -/

/-- A string Deadwood keeps in the cache: something of its own (a last byte of 3 or more, or at most
seven bytes), or an answer. -/
def Storable (v : List UInt8) : Prop :=
  v.length < 134217727 ∧
    (v.length ≤ 7 ∨ (∃ k, v.getLast? = some k ∧ 3 ≤ k.toNat) ∨ ∃ p : Packed, p.Ok ∧ p.all ≠ [] ∧ v = p.enc)

theorem fetched_eq (v : List UInt8) : fetched v = ofBytes v := rfl

theorem enc_last (p : Packed) : p.enc.getLast? = some p.kind := by
  simp [Packed.enc]

/-- The last byte of a string, as Deadwood reads it. -/
theorem last_byte {s : DwStr} (h : Usable s) :
    s.fetchU8 (-1) = match s.contents.getLast? with | some k => .ok k.toNat | none => .err := by
  rcases List.eq_nil_or_concat s.contents with e | ⟨l, x, e⟩
  · have hl : s.len = 0 := by rw [← h.clen, e]; rfl
    rw [e]
    unfold DwStr.fetchU8
    simp [h.sane, hl, DwStr.u32]
  · have := (fetchU8_in h l.length (by rw [e]; simp)).2
    rw [e]
    simp only [e, List.concat_eq_append, List.length_append, List.length_cons, List.length_nil] at this
    simp only [List.concat_eq_append, List.getLast?_append, List.getLast?_singleton, Option.some_or]
    rw [show ((-1 : Int)) = (l.length : Int) - ((l.length + (0 + 1) : Nat) : Int) by omega, this]
    simp [e]

theorem foreign_err {v : List UInt8} (hl : v.length < 134217727)
    (h : v.length ≤ 7 ∨ ∃ k, v.getLast? = some k ∧ 3 ≤ k.toNat) (junk : List UInt8) :
    (ofBytes v).makeDnsStr junk = .err := by
  have hu := ofBytes_usable hl
  have hlen : (ofBytes v).len = v.length := rfl
  unfold DwStr.makeDnsStr
  simp only [hu.sane, Bool.not_true, Bool.false_eq_true, if_false, hlen]
  by_cases h7 : ((v.length : Int) - 1 < 7)
  · rw [if_pos h7]
  · rw [if_neg h7]
    rcases h with h | ⟨k, hk, h3⟩
    · omega
    · obtain ⟨l, rfl⟩ : ∃ l, v = l ++ [k] := by
        rcases List.eq_nil_or_concat v with e | ⟨l, x, e⟩
        · simp [e] at hk
        · rw [List.concat_eq_append] at e
          rw [e] at hk ⊢
          simp at hk
          exact ⟨l, by rw [hk]⟩
      have hp := DwStr.peek_contents (s := ofBytes (l ++ [k])) (i := l.length) (by simp [ofBytes_contents])
      have e0 : (((l ++ [k]).length : Int) - 1).toNat = l.length := by simp
      rw [e0, hp, Res.ok_bind]
      have e1 : (ofBytes (l ++ [k])).contents[l.length]'(by simp [ofBytes_contents]) = k := by simp [ofBytes_contents]
      rw [if_pos]
      simp only [e1]
      refine ⟨?_, ?_, ?_⟩ <;> (intro e; rw [e] at h3; revert h3; decide)

theorem aged_ok {p : Packed} (h : p.Ok) (t : Nat) : (p.aged t).Ok ∧ ((p.aged t).all = [] ↔ p.all = []) := by
  have e : (p.aged t).all = p.an.map (fun r => r.withTtl (agedTtl t)) ++ p.ns ++ p.ar := rfl
  refine ⟨⟨?_, ?_, h.kind⟩, ?_⟩
  · intro r hr
    rw [e, List.append_assoc, List.mem_append] at hr
    rcases hr with hr | hr
    · obtain ⟨x, hx, rfl⟩ := List.mem_map.1 hr
      have := h.recs x (by simp [Packed.all, hx])
      refine ⟨this.type, this.cls, ?_, this.rdlen⟩
      simp only [RR.withTtl, agedTtl]; omega
    · exact h.recs r (by simpa [Packed.all] using Or.inr (List.mem_append.1 hr))
  · have : sizes (p.aged t).all = sizes p.all := by
      rw [sizes, sizes, e]
      simp only [Packed.all, List.map_append, List.map_map]
      rfl
    rw [this]; exact h.size
  · rw [e]; simp [Packed.all]

theorem rotated_perm {p q : Packed} (h : p.rotated = some q) :
    q.an.Perm p.an ∧ q.ns = p.ns ∧ q.ar = p.ar ∧ q.kind = p.kind := by
  unfold Packed.rotated at h
  split at h
  · cases h
  · simp only at h
    split at h
    · next r q' post hd =>
      split at h
      · cases h
      · cases h
        refine ⟨?_, rfl, rfl, rfl⟩
        have e := List.takeWhile_append_dropWhile (p := fun r : RR => r.type == 5) (l := p.an)
        rw [hd] at e
        conv_rhs => rw [← e]
        simp only [List.append_assoc]
        refine List.Perm.append_left _ ?_
        exact (List.perm_append_comm (l₁ := [r])).symm
    · cases h

theorem rotated_ok {p q : Packed} (h : p.Ok) (hq : p.rotated = some q) : q.Ok ∧ (q.all = [] ↔ p.all = []) := by
  obtain ⟨h1, h2, h3, h4⟩ := rotated_perm hq
  have hp : q.all.Perm p.all := by
    simp only [Packed.all, h2, h3]
    exact (h1.append_right _).append_right _
  refine ⟨⟨fun r hr => h.recs r (hp.mem_iff.1 hr), ?_, by rw [h4]; exact h.kind⟩, ?_⟩
  · have : sizes q.all = sizes p.all := by
      simp only [sizes]
      exact (hp.map _).sum_nat
    rw [this]; exact h.size
  · constructor
    · intro e; rw [e] at hp; exact List.nil_perm.1 hp
    · intro e; rw [e] at hp; exact List.perm_nil.1 hp

theorem enc_short {p : Packed} (h : p.Ok) : p.enc.length < 134217727 := by
  have := h.short
  omega

theorem storable_enc {p : Packed} (h : p.Ok) (hne : p.all ≠ []) : Storable p.enc :=
  ⟨enc_short h, Or.inr (Or.inr ⟨p, h, hne, rfl⟩)⟩

theorem pop8_safe {s : DwStr} (h : Usable s) : ∃ n s', Reply.pop s DwStr.popU8 = .ok (n, s') ∧ Usable s' ∧
    (0 ≤ n ∨ n = -1) := by
  rcases List.eq_nil_or_concat s.contents with e | ⟨l, x, e⟩
  · exact ⟨-1, s, by rw [Reply.pop, (popU8_exact h).1 e], h, Or.inr rfl⟩
  · obtain ⟨s', e1, e2, -, -⟩ := (popU8_exact h).2 l x (by rw [e, List.concat_eq_append])
    exact ⟨x.toNat, s', by rw [Reply.pop, e1], e2, Or.inl (by omega)⟩

theorem pop16_safe {s : DwStr} (h : Usable s) : ∃ n s', Reply.pop s DwStr.popU16 = .ok (n, s') ∧ Usable s' ∧
    (0 ≤ n ∨ n = -1) := by
  by_cases h2 : s.contents.length < 2
  · exact ⟨-1, s, by rw [Reply.pop, (popU16_exact h).1 h2], h, Or.inr rfl⟩
  · rcases List.eq_nil_or_concat s.contents with e | ⟨l, y, e⟩
    · simp [e] at h2
    · rcases List.eq_nil_or_concat l with e' | ⟨l', x, e'⟩
      · simp [e, e'] at h2
      · obtain ⟨s', e1, e2, -, -⟩ := (popU16_exact h).2 l' x y (by rw [e, e']; simp)
        exact ⟨(x.toNat * 256 + y.toNat : Nat), s', by rw [Reply.pop, e1], e2, Or.inl (by omega)⟩

theorem withQuestion_safe {q : DwStr} (hq : Usable q) (id flags : Nat) (an ns ar : Int) (junk : List UInt8) :
    Reply.withQuestion q id flags an ns ar junk = .err ∨
    ∃ s, Reply.withQuestion q id flags an ns ar junk = .ok s ∧ Usable s := by
  by_cases hneg : an < 0 ∨ ns < 0 ∨ ar < 0
  · exact Or.inl (by rw [Reply.withQuestion, if_pos hneg])
  · obtain ⟨a, ha⟩ := Int.eq_ofNat_of_zero_le (show 0 ≤ an by omega)
    obtain ⟨b, hb⟩ := Int.eq_ofNat_of_zero_le (show 0 ≤ ns by omega)
    obtain ⟨c, hc⟩ := Int.eq_ofNat_of_zero_le (show 0 ≤ ar by omega)
    subst ha hb hc
    have h := Reply.withQuestion_ok hq id flags a b c junk
    by_cases hl : q.contents.length + 14 < 515
    · obtain ⟨s, e, u, -⟩ := h.2 hl
      exact Or.inr ⟨s, e, u⟩
    · exact Or.inl (h.1 (by omega))

theorem makePacket_safe {q v : DwStr} (hq : Usable q) (hv : Usable v) (id : Nat) (junk : List UInt8) :
    ∃ p v', Reply.makePacket q v id junk = .ok (p, v') := by
  obtain ⟨k, v1, e1, u1, -⟩ := pop8_safe hv
  rw [Reply.makePacket, e1, Res.ok_bind]
  simp only
  split
  · rcases withQuestion_safe hq id (if k = 3 then 0x8380 else 0x8383) 0 0 0 junk with e | ⟨s, e, -⟩
    · rw [e]; exact ⟨_, _, rfl⟩
    · rw [e]; exact ⟨_, _, rfl⟩
  · obtain ⟨ar, v2, e2, u2, -⟩ := pop16_safe u1
    obtain ⟨ns, v3, e3, u3, -⟩ := pop16_safe u2
    obtain ⟨an, v4, e4, u4, -⟩ := pop16_safe u3
    rw [e2, Res.ok_bind, e3, Res.ok_bind, e4, Res.ok_bind]
    simp only
    split
    · rcases withQuestion_safe hq id (if k = 1 then 0x8183 else 0x8180) an ns ar junk with e | ⟨s, e, us⟩
      · rw [e]; exact ⟨_, _, rfl⟩
      · rw [e]
        simp only [Res.bind]
        by_cases hl : s.contents.length + v4.contents.length < s.max
        · obtain ⟨t, e5, -⟩ := (append_exact u4 us).2 hl
          rw [e5]; exact ⟨_, _, rfl⟩
        · rw [(append_exact u4 us).1 (by omega)]; exact ⟨_, _, rfl⟩
    · exact ⟨_, _, rfl⟩

/-! ## The cache -/

/-- A cache in which every entry is a string Deadwood keeps. -/
structure Inv (c : Cache) : Prop where
  kn : KN c
  book : Book c
  room : c.lru.length + c.perm.length < c.cap ∨ c.lru = []
  lru : ∀ e ∈ c.lru, Storable e.val
  perm : ∀ e ∈ c.perm, Storable e.val

/-- At most the entry for `k` is different. -/
structure Only (k : List UInt8) (c c' : Cache) : Prop where
  cap : c'.cap = c.cap
  perm : c'.perm = c.perm
  others : ∀ k', k' ≠ k → Cache.find c'.lru k' = Cache.find c.lru k'

theorem Only.refl (k : List UInt8) (c : Cache) : Only k c c := ⟨rfl, rfl, fun _ _ => rfl⟩

theorem Only.trans {k : List UInt8} {a b c : Cache} (h : Only k a b) (g : Only k b c) : Only k a c :=
  ⟨g.cap.trans h.cap, g.perm.trans h.perm, fun k' hk => (g.others k' hk).trans (h.others k' hk)⟩

/-- The value, if a lookup finds one. -/
def seen (c : Cache) (now : Int) (k : List UInt8) (anyAge : Bool) : Option (List UInt8) :=
  match Cache.find c.perm k with
  | some e => some e.val
  | none => match Cache.find c.lru k with
    | none => none
    | some e => if anyAge || Cache.fresh now e then some e.val else none

theorem look_inv {c : Cache} (I : Inv c) (now : Int) (k : List UInt8) (anyAge : Bool) :
    (c.look now k anyAge).1 = seen c now k anyAge ∧ Inv (c.look now k anyAge).2 ∧
    Only k c (c.look now k anyAge).2 ∧
    (∀ k', Cache.find (c.look now k anyAge).2.lru k' = Cache.find c.lru k') := by
  have hf := look_find c now k anyAge
  have hK : KN (c.look now k anyAge).2 := I.kn.step (op := .look now k anyAge) trivial
  have hB : Book (c.look now k anyAge).2 := I.book.step (op := .look now k anyAge) trivial
  have hcap : (c.look now k anyAge).2.cap = c.cap := by
    unfold Cache.look
    split
    · rfl
    · split
      · rfl
      · split <;> rfl
  have hlen : (c.look now k anyAge).2.lru.length ≤ c.lru.length ∧
      (∀ e ∈ (c.look now k anyAge).2.lru, e ∈ c.lru) := by
    unfold Cache.look
    split
    · exact ⟨Nat.le_refl _, fun e he => he⟩
    · split
      · exact ⟨Nat.le_refl _, fun e he => he⟩
      · next e he =>
        split
        · refine ⟨without_lt he, fun x hx => ?_⟩
          rcases List.mem_cons.1 hx with rfl | hx
          · exact (find_some_mem he).1
          · exact (mem_without.1 hx).1
        · exact ⟨Nat.le_refl _, fun e he => he⟩
  refine ⟨?_, ⟨hK, hB, ?_, fun e he => I.lru e (hlen.2 e he), ?_⟩, ⟨hcap, (hf k).2, fun k' _ => (hf k').1⟩,
    fun k' => (hf k').1⟩
  · unfold Cache.look seen
    cases h1 : Cache.find c.perm k with
    | some e => rfl
    | none =>
      cases h2 : Cache.find c.lru k with
      | none => rfl
      | some e => simp only; split <;> rfl
  · rw [hcap, (hf k).2]
    rcases I.room with h | h
    · exact Or.inl (by have := hlen.1; omega)
    · refine Or.inr ?_
      have := hlen.1
      rw [h] at this
      exact List.length_eq_zero_iff.1 (by simpa using this)
  · rw [(hf k).2]; exact I.perm

theorem trim_room {c : Cache} (hpos : 0 < c.cap) (h : c.lru.length + c.perm.length ≤ c.cap ∨ c.lru.length ≤ 1) :
    (Cache.trim c).lru.length + (Cache.trim c).perm.length < (Cache.trim c).cap ∨ (Cache.trim c).lru = [] := by
  unfold Cache.trim
  split
  · next hc =>
    simp only [List.length_dropLast]
    by_cases h0 : c.lru.length ≤ 1
    · refine Or.inr (List.length_eq_zero_iff.1 ?_)
      rw [List.length_dropLast]; omega
    · exact Or.inl (by omega)
  · next hc => exact Or.inl (by omega)

/-- Putting a value keeps the cache in order. -/
theorem put_inv {c c' : Cache} (I : Inv c) {now : Int} (hn : 0 ≤ now) {k v : List UInt8} (hv : Storable v) {t : Int}
    (hp : c.put now k v t = some c') : Inv c' := by
  have hs : (step c (.put now k v t)).2 = c' := by simp [step, hp]
  have hK := I.kn.put hp
  have hB : Book c' := by rw [← hs]; exact I.book.step (op := .put now k v t) hn
  unfold Cache.put at hp
  split at hp
  · cases hp; exact I
  · split at hp
    · cases hp
    · cases hp
      obtain ⟨h1, h2, h3⟩ := trim_sub { c with lru := ⟨k, v, c.expiry now k t⟩ :: Cache.without c.lru k }
      refine ⟨hK, hB, trim_room I.book.pos ?_, fun e he => ?_, ?_⟩
      · have := length_without c.lru k
        simp only [List.length_cons]
        rcases I.room with h | h
        · exact Or.inl (by omega)
        · rw [h] at this; exact Or.inr (by rw [h]; simpa using this)
      · rcases List.mem_cons.1 (h1.subset he) with rfl | he
        · exact hv
        · exact I.lru e (mem_without.1 he).1
      · rw [h2]; exact I.perm

/-- Putting a value for a key that is there, with the lifetime that is left. -/
theorem again_inv {c : Cache} (I : Inv c) {now : Int} (hn : 0 ≤ now) {k v : List UInt8} (hv : Storable v) {e : Entry}
    (hp : Cache.find c.perm k = none) (he : Cache.find c.lru k = some e) :
    Inv (step c (.put now k v (-2))).2 ∧ Only k c (step c (.put now k v (-2))).2 ∧
    Cache.find (step c (.put now k v (-2))).2.lru k = some ⟨k, v, e.expire⟩ := by
  have hput : c.put now k v (-2) = some { c with lru := ⟨k, v, e.expire⟩ :: Cache.without c.lru k } := by
    have hne : c.lru ≠ [] := by intro h; rw [h] at he; simp [Cache.find] at he
    have hlt := without_lt he
    have hroom := I.room.resolve_right hne
    unfold Cache.put
    rw [if_neg (by omega), if_neg (by simp [hp])]
    simp only [Cache.expiry, if_pos, he]
    rw [Cache.trim, if_neg]
    simp only [List.length_cons]; omega
  have hs : (step c (.put now k v (-2))).2 = { c with lru := ⟨k, v, e.expire⟩ :: Cache.without c.lru k } := by
    simp [step, hput]
  rw [hs]
  refine ⟨put_inv I hn hv hput, ⟨rfl, rfl, fun k' hk => ?_⟩, ?_⟩
  · rw [find_cons, if_neg (fun h => hk h.symm), find_without, if_neg hk]
  · rw [find_cons, if_pos rfl]

theorem drop_inv {c : Cache} (I : Inv c) (k : List UInt8) :
    Inv (c.drop k).2 ∧ Only k c (c.drop k).2 ∧
    (∀ e, Cache.find (c.drop k).2.lru k = some e → Cache.find c.lru k = some e) := by
  have hK : KN (c.drop k).2 := I.kn.step (op := .drop k) trivial
  have hB : Book (c.drop k).2 := I.book.step (op := .drop k) trivial
  unfold Cache.drop at *
  split
  · exact ⟨I, Only.refl _ _, fun e he => he⟩
  · split
    · next h1 h2 =>
      rw [if_neg h1, if_pos h2] at hK hB
      have hl := length_without c.lru k
      refine ⟨⟨hK, hB, ?_, fun e he => I.lru e (mem_without.1 he).1, I.perm⟩, ⟨rfl, rfl, fun k' hk => ?_⟩, fun e he => ?_⟩
      · rcases I.room with h | h
        · exact Or.inl (by simp only; omega)
        · exact Or.inr (by simp [h, Cache.without])
      · simp only; rw [find_without, if_neg hk]
      · simp only at he; rw [find_without, if_pos rfl] at he; cases he
    · exact ⟨I, Only.refl _ _, fun e he => he⟩

/-! ## Ageing and rotation -/

/-- The outcome of a computation as the caller sees it. -/
def Gives {α : Type} (r : Res α) (o : Option α) : Prop := r = match o with | some a => .ok a | none => .err

theorem attempt_gives {α β : Type} {r : Res α} {o : Option α} (h : Gives r o) (k : Option α → Prog β) :
    attempt r k = k o := by
  rw [h]; cases o <;> rfl

theorem not_answer {v : List UInt8} (h : Storable v) (hn : ¬ ∃ p : Packed, p.Ok ∧ p.all ≠ [] ∧ v = p.enc)
    (junk : List UInt8) : (ofBytes v).makeDnsStr junk = .err := by
  rcases h with ⟨hl, h | h | h⟩
  · exact foreign_err hl (Or.inl h) junk
  · exact foreign_err hl (Or.inr h) junk
  · exact absurd h hn

theorem age_safe {v : List UInt8} (hv : Storable v) (t : Nat) (ht : t < 2147483648) (junk : List UInt8) :
    ∃ r, Gives ((fetched v).ttlAge t junk) r ∧
      (∀ w, r = some w → Storable w.contents ∧ w.contents.getLast? = v.getLast?) ∧
      (∀ p : Packed, p.Ok → p.all ≠ [] → v = p.enc → ∃ w, r = some w ∧ w.contents = (p.aged t).enc) := by
  by_cases h : ∃ p : Packed, p.Ok ∧ p.all ≠ [] ∧ v = p.enc
  · have key : ∀ p : Packed, p.Ok → p.all ≠ [] → v = p.enc → ∃ w, (ofBytes v).ttlAge t junk = .ok w ∧
        w.contents = (p.aged t).enc := by
      intro p h1 h2 h3
      obtain ⟨w, e, -, -, hc⟩ := DwStr.ttlAge_exact (ofBytes_usable hv.1) h1 h2 (by rw [ofBytes_contents, h3]) t ht junk
      exact ⟨w, e, hc⟩
    obtain ⟨p, h1, h2, h3⟩ := h
    obtain ⟨w, e, hc⟩ := key p h1 h2 h3
    refine ⟨some w, e, ?_, ?_⟩
    · rintro w' ⟨⟩
      rw [hc, h3, enc_last, enc_last]
      exact ⟨storable_enc (aged_ok h1 t).1 (fun x => h2 ((aged_ok h1 t).2.1 x)), rfl⟩
    · intro p' g1 g2 g3
      obtain ⟨w', e', hc'⟩ := key p' g1 g2 g3
      rw [e] at e'; cases e'
      exact ⟨w, rfl, hc'⟩
  · refine ⟨none, ?_, by simp, fun p h1 h2 h3 => absurd ⟨p, h1, h2, h3⟩ h⟩
    simp only [Gives, DwStr.ttlAge, fetched_eq, not_answer hv h]
    rw [if_neg (by omega)]
    rfl

theorem rot_safe {v : List UInt8} (hv : Storable v) (junk : List UInt8) :
    ∃ r, Gives ((fetched v).rrRotate junk) r ∧
      (∀ w, r = some w → Storable w.contents ∧ w.contents.getLast? = v.getLast?) ∧
      (∀ p : Packed, p.Ok → p.all ≠ [] → v = p.enc → r.map DwStr.contents = p.rotated.map Packed.enc) := by
  by_cases h : ∃ p : Packed, p.Ok ∧ p.all ≠ [] ∧ v = p.enc
  · have key : ∀ p : Packed, p.Ok → p.all ≠ [] → v = p.enc → ∃ r, Gives ((ofBytes v).rrRotate junk) r ∧
        r.map DwStr.contents = p.rotated.map Packed.enc := by
      intro p h1 h2 h3
      have := DwStr.rrRotate_exact (ofBytes_usable hv.1) h1 h2 (by rw [ofBytes_contents, h3]) junk
      cases hr : p.rotated with
      | none => rw [hr] at this; exact ⟨none, this, rfl⟩
      | some q =>
        rw [hr] at this
        obtain ⟨w, e, -, -, hc, -⟩ := this
        exact ⟨some w, e, by simp [hc]⟩
    obtain ⟨p, h1, h2, h3⟩ := h
    obtain ⟨r, e, hc⟩ := key p h1 h2 h3
    refine ⟨r, e, ?_, ?_⟩
    · rintro w rfl
      cases hr : p.rotated with
      | none => rw [hr] at hc; cases hc
      | some q =>
        rw [hr] at hc
        simp only [Option.map_some, Option.some.injEq] at hc
        rw [hc, h3, enc_last, enc_last, (rotated_perm hr).2.2.2]
        exact ⟨storable_enc (rotated_ok h1 hr).1 (fun x => h2 ((rotated_ok h1 hr).2.1 x)), rfl⟩
    · intro p' g1 g2 g3
      obtain ⟨r', e', hc'⟩ := key p' g1 g2 g3
      have : r = r' := by
        unfold Gives at e e'
        rw [e] at e'
        cases r <;> cases r' <;> simp_all
      rw [this]; exact hc'
  · refine ⟨none, ?_, by simp, fun p h1 h2 h3 => absurd ⟨p, h1, h2, h3⟩ h⟩
    simp only [Gives, DwStr.rrRotate, fetched_eq, not_answer hv h]
    rfl

/-- The last byte. -/
theorem last_gives {v : List UInt8} (hv : v.length < 134217727) :
    Gives ((fetched v).fetchU8 (-1)) (v.getLast?.map UInt8.toNat) := by
  unfold Gives
  rw [fetched_eq, last_byte (ofBytes_usable hv), ofBytes_contents]
  cases v.getLast? <;> rfl

/-- The answer, aged and rotated, with `s` seconds left. -/
def renewed (cfg : Cfg) (s : Nat) (p : Packed) : Packed :=
  let p := if cfg.age = 1 then p.aged s else p
  if cfg.chain = 1 then p.rotated.getD p else p

/-- What becomes of the value `v` that an entry had. -/
structure Fresher (now : Int) (e : Entry) (f : Nat → Packed → Packed) (v : List UInt8) : Prop where
  last : v.getLast? = e.val.getLast?
  old : Cache.fresh now e = false ∨ 31536001 * 256 ≤ e.expire - now → v = e.val
  new : ∀ p : Packed, p.Ok → p.all ≠ [] → e.val = p.enc → Cache.fresh now e = true → e.expire - now < 31536001 * 256 →
    v = (f ((e.expire - now) / 256).toNat p).enc

/-- The state after a program that works on the entry for `k`. -/
def Works (now : Int) (k : List UInt8) (f : Nat → Packed → Packed) (p : Prog Unit) (c : Cache) : Prop :=
  ∃ c', p.spec c = some ((), c') ∧ Inv c' ∧ Only k c c' ∧
    (∀ e, Cache.find c.perm k = none → Cache.find c.lru k = some e →
      ∃ v, Cache.find c'.lru k = some { e with val := v } ∧ Fresher now e f v) ∧
    (Cache.find c.lru k = none → Cache.find c'.lru k = none)

theorem perm_not_lru {c : Cache} (I : Inv c) {k : List UInt8} {e : Entry} (h : Cache.find c.perm k = some e) :
    Cache.find c.lru k = none := by
  rw [find_eq_none]
  intro x hx hk
  have := I.kn.disj x hx
  rw [hk, h] at this
  cases this

theorem put_perm {c : Cache} {now : Int} {k v : List UInt8} {e : Entry} (h : Cache.find c.perm k = some e) :
    (step c (.put now k v (-2))).2 = c := by
  have : c.put now k v (-2) = none := by
    unfold Cache.put
    rw [if_neg (by omega), if_pos (by simp [h])]
  simp [step, this]

theorem look_perm {c : Cache} {now : Int} {k : List UInt8} {b : Bool} {e : Entry} (h : Cache.find c.perm k = some e) :
    c.look now k b = (some e.val, c) := by
  simp [Cache.look, h]

theorem ttl_range (c : Cache) (now : Int) (k : List UInt8) :
    c.ttlLeft now k = -1 ∨ ∃ t : Nat, c.ttlLeft now k = t ∧ t < 2147483648 := by
  unfold Cache.ttlLeft
  split
  · exact Or.inl rfl
  · split
    · exact Or.inl rfl
    · next e _ h =>
      refine Or.inr ⟨((e.expire - now) / 256).toNat, ?_, ?_⟩
      · omega
      · omega

theorem ttl_lru {c : Cache} {now : Int} {k : List UInt8} {e : Entry} (h : Cache.find c.lru k = some e) :
    c.ttlLeft now k = if e.expire - now < 0 ∨ 31536001 * 256 ≤ e.expire - now then -1 else (e.expire - now) / 256 := by
  have : Cache.find (c.lru ++ c.perm) k = some e := by
    unfold Cache.find at *
    rw [List.find?_append, h]; rfl
  rw [Cache.ttlLeft, this]

theorem turn_perm {cfg : Cfg} {now : Int} {c : Cache} (I : Inv c) {k : List UInt8} {e : Entry}
    (h : Cache.find c.perm k = some e) : (turn cfg now k 3).spec c = some ((), c) := by
  unfold turn
  split
  · simp only [look, Prog.spec, step, look_perm h]
    obtain ⟨r, g, -⟩ := rot_safe (I.perm e (find_some_mem h).1) cfg.junk
    rw [attempt_gives g]
    cases r with
    | none => rfl
    | some w =>
      simp only [ttl, Prog.spec, step]
      split
      · rfl
      · simp only [again, Prog.spec]
        rw [put_perm h]
  · rfl

theorem process_perm {cfg : Cfg} {now : Int} {c : Cache} (I : Inv c) {k : List UInt8} {e : Entry}
    (h : Cache.find c.perm k = some e) : (process cfg now k 3).spec c = some ((), c) := by
  have hs := I.perm e (find_some_mem h).1
  unfold process
  simp only [look, Prog.spec, step, look_perm h]
  rw [attempt_gives (last_gives hs.1)]
  split
  · rfl
  · split
    · simp only [ttl, Prog.spec, step]
      split
      · rfl
      · next hne =>
        obtain ⟨t, ht, htl⟩ := (ttl_range c now k).resolve_left hne
        rw [ht]
        obtain ⟨r, g, -⟩ := age_safe hs t htl cfg.junk
        rw [attempt_gives g]
        cases r with
        | none => rfl
        | some w =>
          simp only [again, Prog.spec]
          rw [put_perm h]
          exact turn_perm I h
    · exact turn_perm I h

theorem turn_works {cfg : Cfg} {now : Int} (hn : 0 ≤ now) {c : Cache} (I : Inv c) {k : List UInt8} {e : Entry}
    (hp : Cache.find c.perm k = none) (hl : Cache.find c.lru k = some e) :
    ∃ c' v, (turn cfg now k 3).spec c = some ((), c') ∧ Inv c' ∧ Only k c c' ∧
      Cache.find c'.lru k = some { e with val := v } ∧
      Fresher now e (fun _ p => if cfg.chain = 1 then p.rotated.getD p else p) v := by
  have hk : e.key = k := (find_some_mem hl).2
  have hsame : Fresher now e (fun _ p => p) e.val := ⟨rfl, fun _ => rfl, fun p _ _ h _ _ => h⟩
  unfold turn
  by_cases hc : cfg.chain = 1
  · simp only [hc, true_and]
    rw [if_pos (by decide)]
    obtain ⟨g1, g2, g3, g4⟩ := look_inv I now k false
    simp only [look, Prog.spec, step]
    rw [g1]
    by_cases hf : Cache.fresh now e = true
    · have : seen c now k false = some e.val := by simp [seen, hp, hl, hf]
      rw [this]
      simp only
      obtain ⟨r, hr, s1, s2⟩ := rot_safe (I.lru e (find_some_mem hl).1) cfg.junk
      rw [attempt_gives hr]
      have hl1 : Cache.find (c.look now k false).2.lru k = some e := by rw [g4]; exact hl
      cases r with
      | none =>
        refine ⟨_, e.val, rfl, g2, g3, hl1, rfl, fun _ => rfl, fun p h1 h2 h3 _ _ => ?_⟩
        have := s2 p h1 h2 h3
        cases hrot : p.rotated with
        | none => simpa using h3
        | some q => rw [hrot] at this; cases this
      | some w =>
        obtain ⟨w1, w2⟩ := s1 w rfl
        simp only [ttl, Prog.spec, step]
        rw [ttl_lru hl1]
        have hge : ¬ e.expire - now < 0 := by
          simp only [Cache.fresh, Bool.and_eq_true, decide_eq_true_eq] at hf; omega
        by_cases hy : 31536001 * 256 ≤ e.expire - now
        · rw [if_pos (Or.inr hy)]
          refine ⟨_, e.val, rfl, g2, g3, hl1, rfl, fun _ => rfl, fun p _ _ _ _ h => by omega⟩
        · rw [if_neg (by omega)]
          simp only [again, Prog.spec]
          have hp1 : Cache.find (c.look now k false).2.perm k = none := by rw [g3.perm]; exact hp
          obtain ⟨a1, a2, a3⟩ := again_inv g2 hn w1 hp1 hl1
          refine ⟨_, w.contents, rfl, a1, g3.trans a2, by rw [a3, ← hk], w2, ?_, ?_⟩
          · rintro (h | h)
            · rw [hf] at h; cases h
            · omega
          · intro p h1 h2 h3 _ _
            have := s2 p h1 h2 h3
            cases hrot : p.rotated with
            | none => rw [hrot] at this; cases this
            | some q => rw [hrot] at this; simpa using this
    · have : seen c now k false = none := by simp [seen, hp, hl, hf]
      rw [this]
      refine ⟨_, e.val, rfl, g2, g3, by rw [g4]; exact hl, rfl, fun _ => rfl, fun p _ _ _ h _ => absurd h hf⟩
  · rw [if_neg (by simp [hc])]
    refine ⟨c, e.val, rfl, I, Only.refl _ _, hl, ?_⟩
    simpa [hc] using hsame

theorem process_works (cfg : Cfg) {now : Int} (hn : 0 ≤ now) {c : Cache} (I : Inv c) (k : List UInt8) :
    Works now k (renewed cfg) (process cfg now k 3) c := by
  cases hp : Cache.find c.perm k with
  | some e =>
    exact ⟨c, process_perm I hp, I, Only.refl _ _, fun e h => (by rw [hp] at h; cases h), fun h => h⟩
  | none =>
    obtain ⟨g1, g2, g3, g4⟩ := look_inv I now k false
    cases hl : Cache.find c.lru k with
    | none =>
      have : seen c now k false = none := by simp [seen, hp, hl]
      refine ⟨(c.look now k false).2, ?_, g2, g3, fun e _ h => (by rw [hl] at h; cases h), fun _ => by rw [g4]; exact hl⟩
      unfold process
      simp only [look, Prog.spec, step, g1, this]
    | some e =>
      have hk : e.key = k := (find_some_mem hl).2
      have hs := I.lru e (find_some_mem hl).1
      have hl1 : Cache.find (c.look now k false).2.lru k = some e := by rw [g4]; exact hl
      have hp1 : Cache.find (c.look now k false).2.perm k = none := by rw [g3.perm]; exact hp
      suffices h : ∃ c' v, (process cfg now k 3).spec c = some ((), c') ∧ Inv c' ∧ Only k c c' ∧
          Cache.find c'.lru k = some { e with val := v } ∧ Fresher now e (renewed cfg) v by
        obtain ⟨c', v, h1, h2, h3, h4, h5⟩ := h
        exact ⟨c', h1, h2, h3, fun e' _ he => by rw [hl] at he; cases he; exact ⟨v, h4, h5⟩,
          fun h => by rw [hl] at h; cases h⟩
      unfold process
      simp only [look, Prog.spec, step]
      rw [g1]
      by_cases hf : Cache.fresh now e = true
      · have hsn : seen c now k false = some e.val := by simp [seen, hp, hl, hf]
        rw [hsn]
        simp only
        rw [attempt_gives (last_gives hs.1)]
        have hge : ¬ e.expire - now < 0 := by
          simp only [Cache.fresh, Bool.and_eq_true, decide_eq_true_eq] at hf; omega
        have hno : ∀ p : Packed, p.Ok → e.val = p.enc → ¬ e.val.getLast?.map UInt8.toNat = some 24 := by
          intro p h1 h2 h3
          rw [h2, enc_last] at h3
          rcases h1.kind with h | h | h <;> simp [h] at h3
        split
        · next h24 =>
          exact ⟨_, e.val, rfl, g2, g3, hl1, rfl, fun _ => rfl, fun p h1 _ h2 => absurd h24 (hno p h1 h2)⟩
        · by_cases ha : cfg.age = 1
          · rw [if_pos ⟨ha, by decide⟩]
            simp only [ttl, Prog.spec, step]
            rw [ttl_lru hl1]
            by_cases hy : 31536001 * 256 ≤ e.expire - now
            · rw [if_pos (Or.inr hy)]
              exact ⟨_, e.val, rfl, g2, g3, hl1, rfl, fun _ => rfl, fun p _ _ _ _ h => by omega⟩
            · rw [if_neg (by omega), if_neg (by omega)]
              obtain ⟨r, hr, s1, s2⟩ := age_safe hs ((e.expire - now) / 256).toNat (by omega) cfg.junk
              rw [show (((e.expire - now) / 256).toNat : Int) = (e.expire - now) / 256 by omega] at hr
              rw [attempt_gives hr]
              cases r with
              | none =>
                refine ⟨_, e.val, rfl, g2, g3, hl1, rfl, fun _ => rfl, fun p h1 h2 h3 _ _ => ?_⟩
                obtain ⟨w, h, -⟩ := s2 p h1 h2 h3
                cases h
              | some w =>
                obtain ⟨w1, w2⟩ := s1 w rfl
                simp only [again, Prog.spec]
                obtain ⟨a1, a2, a3⟩ := again_inv g2 hn w1 hp1 hl1
                have hp2 := hp1
                rw [← a2.perm] at hp2
                obtain ⟨c', v, t1, t2, t3, t4, t5⟩ := turn_works (cfg := cfg) hn a1 hp2 a3
                refine ⟨c', v, t1, t2, g3.trans (a2.trans t3), by rw [t4, ← hk], ?_, ?_, ?_⟩
                · rw [t5.last]; exact w2
                · rintro (h | h)
                  · rw [hf] at h; cases h
                  · omega
                · intro p h1 h2 h3 _ _
                  obtain ⟨w', h, hc⟩ := s2 p h1 h2 h3
                  cases h
                  have := t5.new _ (aged_ok h1 ((e.expire - now) / 256).toNat).1
                    (fun x => h2 ((aged_ok h1 _).2.1 x)) hc hf (by simp only; omega)
                  rw [this, renewed, if_pos ha]
          · rw [if_neg (by simp [ha])]
            obtain ⟨c', v, t1, t2, t3, t4, t5⟩ := turn_works (cfg := cfg) hn g2 hp1 hl1
            refine ⟨c', v, t1, t2, g3.trans t3, t4, t5.last, t5.old, ?_⟩
            intro p h1 h2 h3 h4 h5
            rw [t5.new p h1 h2 h3 h4 h5, renewed, if_neg ha]
      · have hsn : seen c now k false = none := by simp [seen, hp, hl, hf]
        rw [hsn]
        exact ⟨_, e.val, rfl, g2, g3, hl1, rfl, fun _ => rfl, fun p _ _ _ h _ => absurd h hf⟩

end FromCache
end Dw
