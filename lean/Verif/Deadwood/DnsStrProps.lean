import Verif.Deadwood.DnsStrLemmas
import Mathlib.Tactic.SplitIfs
/-! # Cached answers: ageing, rotation, address filter, lower-casing (C23-C26) -/

namespace Dw
open Spec
namespace DwStr

/-! ## C25 -/

theorem ageLoop_eq (t : Nat) (ht : t < 2147483648) : ∀ (rs : List RR) {s : DwStr} {pre post : List UInt8},
    Usable s → (∀ r ∈ rs, r.Ok) → s.contents = pre ++ rs.flatMap RR.enc ++ post →
    s.contents.length ≤ 16777215 →
    ∃ s', ageLoop (t / 65536 % 32768) (t % 65536) (offsets pre.length rs) s = .ok s' ∧ Usable s' ∧
      s'.max = s.max ∧
      s'.contents = pre ++ (rs.map (fun r => r.withTtl t)).flatMap RR.enc ++ post := by
  intro rs
  induction rs with
  | nil =>
    intro s pre post h _ hc _
    exact ⟨s, rfl, h, rfl, by simpa using hc⟩
  | cons r rs ih =>
    intro s pre post h hok hc hlen
    have ro := hok r (by simp)
    have hcls := ro.cls
    have hrd := ro.rdlen
    simp only [List.flatMap_cons, RR.enc, be32] at hc
    obtain ⟨s1, h1, u1, m1, c1⟩ := put_be16 h (v := t / 65536 % 32768)
      (pre := pre ++ r.name ++ be16 r.type ++ r.cls) (old := be16 (r.ttl / 65536))
      (post := be16 (r.ttl % 65536) ++ r.rdlen ++ r.rdata ++ rs.flatMap RR.enc ++ post) rfl
      (by rw [hc]; simp) hlen (i := ((pre.length + r.name.length) + 4 : Nat))
      (by simp only [List.length_append, be16_length, hcls])
    have hlen1 : s1.contents.length ≤ 16777215 := by
      rw [c1]; rw [hc] at hlen; simp [be16] at hlen ⊢; omega
    obtain ⟨s2, h2, u2, m2, c2⟩ := put_be16 u1 (v := t % 65536)
      (pre := pre ++ r.name ++ be16 r.type ++ r.cls ++ be16 (t / 65536 % 32768))
      (old := be16 (r.ttl % 65536))
      (post := r.rdlen ++ r.rdata ++ rs.flatMap RR.enc ++ post) rfl
      (by rw [c1]; simp) hlen1 (i := ((pre.length + r.name.length) + 6 : Nat))
      (by simp only [List.length_append, be16_length, hcls])
    have hmod : t / 65536 % 32768 = t / 65536 := Nat.mod_eq_of_lt (by omega)
    obtain ⟨s3, h3, u3, m3, c3⟩ := ih u2
      (pre := pre ++ RR.enc (r.withTtl t)) (post := post) (fun x hx => hok x (by simp [hx]))
      (by rw [c2, hmod]; simp [RR.enc, be32, RR.withTtl])
      (by
        rw [c2]; rw [c1] at hlen1; simp [be16] at hlen1 ⊢; omega)
    refine ⟨s3, ?_, u3, by rw [m3, m2, m1], ?_⟩
    · simp only [offsets, ageLoop]
      rw [orElse_ok _ h1, Res.ok_bind, orElse_ok _ h2, Res.ok_bind]
      have e : (pre ++ RR.enc (r.withTtl t)).length = pre.length + r.size := by
        rw [List.length_append, RR.enc_length (r := r.withTtl t)
          ⟨ro.type, ro.cls, by show t < 4294967296; omega, ro.rdlen⟩]
        rfl
      rw [e] at h3
      exact h3
    · rw [c3]; simp

/-- **C25.** Ageing a cached answer rewrites exactly the TTL fields of its
answer records, to `max 5 ttl` (31 bits); nothing else changes, whatever the
records are. -/
theorem ttlAge_exact {s : DwStr} (h : Usable s) {p : Packed} (hp : p.Ok) (hne : p.all ≠ [])
    (hc : s.contents = p.enc) (ttl : Nat) (ht : ttl < 2147483648) (junk : List UInt8) :
    ∃ s', s.ttlAge ttl junk = .ok s' ∧ Usable s' ∧ s'.max = s.max ∧
      s'.contents = (p.aged ttl).enc := by
  obtain ⟨d, hd, -, -, han, -⟩ := makeDnsStr_eq h hp hne hc junk
  have ha : agedTtl ttl = if ttl < 5 then 5 else ttl := by
    simp only [agedTtl]; split_ifs <;> omega
  have hall : p.all = p.an ++ (p.ns ++ p.ar) := by simp [Packed.all]
  obtain ⟨s', h1, u1, m1, c1⟩ := ageLoop_eq (agedTtl ttl) (by rw [ha]; split_ifs <;> omega) p.an h
    (pre := []) (post := (p.ns ++ p.ar).flatMap RR.enc ++ (offsets 0 p.all).flatMap Packed.cell ++
      be16 p.an.length ++ be16 p.ns.length ++ be16 p.ar.length ++ [p.kind])
    (fun r hr => hp.recs r (by simp [Packed.all, hr]))
    (by rw [hc, Packed.enc, hall]; simp)
    (by rw [hc]; exact hp.short)
  refine ⟨s', ?_, u1, m1, ?_⟩
  · have hm : ¬ ((ttl : Int) = -1) := by omega
    have e5 : (if (ttl : Int) < 5 then 5 else (ttl : Int).toNat) = agedTtl ttl := by
      rw [ha]; split_ifs <;> omega
    simp only [ttlAge, if_neg hm, hd, Res.ok_bind, e5, han]
    exact h1
  · have hoff : ∀ (f : RR → RR), (∀ r, (f r).name = r.name ∧ (f r).rdata = r.rdata) →
        ∀ (a b : List RR) pos, offsets pos (a.map f ++ b) = offsets pos (a ++ b) := by
      intro f hf a b
      induction a with
      | nil => intro pos; rfl
      | cons x a ih =>
        intro pos
        simp [offsets, ih, RR.size, hf]
    rw [c1, Packed.enc]
    simp only [Packed.all, Packed.aged, List.append_assoc]
    rw [hoff (fun r => r.withTtl (agedTtl ttl)) (fun r => ⟨rfl, rfl⟩)]
    simp

/-- Without a remaining lifetime nothing is aged. -/
theorem ttlAge_expired (s : DwStr) (junk : List UInt8) : s.ttlAge (-1) junk = .err := by
  simp [ttlAge]

/-! ## C23 -/

theorem privateIp_eq (a b c d : UInt8) :
    privateIp (a.toNat * 16777216 + b.toNat * 65536 + c.toNat * 256 + d.toNat) =
      privateAddr [a, b, c, d] := by
  have ha := a.toNat_lt; have hb := b.toNat_lt; have hc := c.toNat_lt; have hd := d.toNat_lt
  have e : ∀ (x : UInt8) (n : Nat) (_ : n < 256), (x == UInt8.ofNat n) = decide (x.toNat = n) := by
    intro x n hn
    rw [Bool.eq_iff_iff]
    simp only [beq_iff_eq, decide_eq_true_eq]
    constructor
    · rintro rfl; simp; omega
    · rintro h
      apply UInt8.toNat_inj.1
      rw [h]; simp; omega
  have e1 := e a 192 (by omega); have e2 := e b 168 (by omega); have e3 := e a 172 (by omega)
  have e4 := e a 10 (by omega); have e5 := e a 127 (by omega); have e6 := e a 169 (by omega)
  have e7 := e b 254 (by omega); have e8 := e a 224 (by omega); have e9 := e a 0 (by omega)
  have e10 := e b 0 (by omega)
  simp only [privateAddr]
  rw [Bool.eq_iff_iff]
  simp only [privateIp, Bool.or_eq_true, Bool.and_eq_true, beq_iff_eq, decide_eq_true_eq]
  have f : ∀ (x : UInt8) (n : Nat) (_ : n < 256), x = UInt8.ofNat n ↔ x.toNat = n := by
    intro x n hn
    have := e x n hn
    rw [Bool.eq_iff_iff] at this
    simpa using this
  have f1 := f a 192 (by omega); have f2 := f b 168 (by omega); have f3 := f a 172 (by omega)
  have f4 := f a 10 (by omega); have f5 := f a 127 (by omega); have f6 := f a 169 (by omega)
  have f7 := f b 254 (by omega); have f8 := f a 224 (by omega); have f9 := f a 0 (by omega)
  have f10 := f b 0 (by omega)
  have g : ∀ n : Nat, (OfNat.ofNat n : UInt8) = UInt8.ofNat n := fun n => rfl
  rw [show (192 : UInt8) = UInt8.ofNat 192 from rfl, show (168 : UInt8) = UInt8.ofNat 168 from rfl,
    show (172 : UInt8) = UInt8.ofNat 172 from rfl, show (10 : UInt8) = UInt8.ofNat 10 from rfl,
    show (127 : UInt8) = UInt8.ofNat 127 from rfl, show (169 : UInt8) = UInt8.ofNat 169 from rfl,
    show (254 : UInt8) = UInt8.ofNat 254 from rfl, show (224 : UInt8) = UInt8.ofNat 224 from rfl,
    show (0 : UInt8) = UInt8.ofNat 0 from rfl]
  rw [f1, f2, f3, f4, f5, f6, f7, f8, f9, f10]
  omega

/-- **C23 (one address).** An IPv4 address is refused exactly when it is in the
block list or, with the filter on, in one of the documented private ranges; any
other address only when it is in the block list. -/
theorem checkIp_exact {ip : DwStr} (h : Usable ip) (filter : Bool) (blocked : List UInt8 → Bool) :
    checkIp filter blocked ip =
      .ok ((filter && decide (ip.contents.length = 4) && privateAddr ip.contents) ||
        blocked ip.contents) := by
  have hl := h.clen
  by_cases h4 : ip.len = 4 ∧ filter = true
  · obtain ⟨h4, rfl⟩ := h4
    rw [h4] at hl
    obtain ⟨a, b, c, d, hc⟩ : ∃ a b c d, ip.contents = [a, b, c, d] := by
      match ip.contents, hl with
      | [a, b, c, d], _ => exact ⟨a, b, c, d, rfl⟩
    have p : ∀ i (hi : i < 4), ip.peek i = .ok ([a, b, c, d][i]) := by
      intro i hi
      rw [peek_contents (by rw [hc]; exact hi)]
      simp only [hc]
    have p0 := p 0 (by omega); have p1 := p 1 (by omega); have p2 := p 2 (by omega)
    have p3 := p 3 (by omega)
    simp only [checkIp, h4, and_self, if_true, p0, p1, p2, p3, Res.ok_bind, List.getElem_cons_zero,
      List.getElem_cons_succ, privateIp_eq, hc]
    cases privateAddr [a, b, c, d] <;> simp
  · rw [checkIp, if_neg h4]
    congr 1
    rw [hl]
    cases filter
    · simp
    · have : ¬ ip.len = 4 := fun hh => h4 ⟨hh, rfl⟩
      simp [this]

theorem privateAddr_len {l : List UInt8} (h : l.length ≠ 4) : privateAddr l = false := by
  match l, h with
  | [], _ => rfl
  | [_], _ => rfl
  | [_, _], _ => rfl
  | [_, _, _], _ => rfl
  | [_, _, _, _], h => simp at h
  | _ :: _ :: _ :: _ :: _ :: _, _ => rfl

theorem badIpLoop_eq (filter : Bool) (blocked : List UInt8 → Bool) (junk : List UInt8) {s : DwStr}
    (h : Usable s) : ∀ (rs : List RR) {pre post : List UInt8}, (∀ r ∈ rs, r.Ok) →
    (∀ r ∈ rs, r.type = 1 → 4 ≤ r.rdata.length) → (∀ r ∈ rs, r.type = 28 → 16 ≤ r.rdata.length) →
    s.contents = pre ++ rs.flatMap RR.enc ++ post →
    badIpLoop filter blocked s junk (offsets pre.length rs) = .ok (rs.any (RR.bad filter blocked)) := by
  intro rs
  induction rs with
  | nil => intro pre post _ _ _ _; rfl
  | cons r rs ih =>
    intro pre post hok h4 h16 hc
    have ro := hok r (by simp)
    have hcls := ro.cls
    have hrd := ro.rdlen
    have hf : s.fetchU16 ((pre.length + r.name.length : Nat) : Int) = .ok r.type :=
      fetch_be16 h ro.type (pre := pre ++ r.name)
        (post := r.cls ++ be32 r.ttl ++ r.rdlen ++ r.rdata ++ rs.flatMap RR.enc ++ post)
        (by rw [hc]; simp [RR.enc]) (by simp)
    have hih := ih (pre := pre ++ r.enc) (post := post) (fun x hx => hok x (by simp [hx]))
      (fun x hx => h4 x (by simp [hx])) (fun x hx => h16 x (by simp [hx]))
      (by rw [hc]; simp)
    rw [List.length_append, RR.enc_length ro] at hih
    have hsub : ∀ n, n ≤ r.rdata.length → n ≤ 16 →
        ∃ c, s.substr ((pre.length + r.name.length + 10 : Nat) : Int) (n : Nat) 1 junk = .ok c ∧
          Usable c ∧ c.contents = r.rdata.take n := by
      intro n hn hn16
      have hcc : s.contents = (pre ++ r.name ++ be16 r.type ++ r.cls ++ be32 r.ttl ++ r.rdlen) ++
          (r.rdata ++ (rs.flatMap RR.enc ++ post)) := by rw [hc]; simp [RR.enc]
      have hpl : (pre ++ r.name ++ be16 r.type ++ r.cls ++ be32 r.ttl ++ r.rdlen).length =
          pre.length + r.name.length + 10 := by
        simp only [be32, List.length_append, be16_length, hcls, hrd]
      obtain ⟨c, c1, c2, -, c4⟩ := substr_in h (pre.length + r.name.length + 10) n 1 junk
        (by rw [hcc, List.length_append, hpl]; simp; omega) (by omega)
      refine ⟨c, c1, c2, ?_⟩
      rw [c4, hcc, ← hpl, List.drop_left, List.take_append_of_le_length hn]
    simp only [offsets, badIpLoop, hf, Res.ok_bind, List.any_cons]
    by_cases t1 : r.type = 1
    · have hlen4 := h4 r (by simp) t1
      obtain ⟨c, c1, c2, c3⟩ := hsub 4 hlen4 (by omega)
      have c1' : s.substr ((pre.length + r.name.length + 10 : Nat) : Int) ((4 : Nat) : Int) 1 junk =
        .ok c := c1
      have hb : RR.bad filter blocked r =
          ((filter && privateAddr (r.rdata.take 4)) || blocked (r.rdata.take 4)) := by
        simp [RR.bad, t1]
      have hn : (if (r.type : Int) = 1 then 4 else if (r.type : Int) = 28 then 16 else 0) = 4 := by
        rw [if_pos (by omega)]
      simp only [hn]
      rw [if_neg (by omega), c1']
      simp only [checkIp_exact c2, c3, Res.ok_bind]
      have : (r.rdata.take 4).length = 4 := by simp; omega
      simp only [this, decide_true, Bool.and_true]
      rw [hb]
      cases (filter && privateAddr (r.rdata.take 4)) || blocked (r.rdata.take 4)
      · simpa using hih
      · simp
    · by_cases t28 : r.type = 28
      · have hlen := h16 r (by simp) t28
        obtain ⟨c, c1, c2, c3⟩ := hsub 16 hlen (by omega)
        have c1' : s.substr ((pre.length + r.name.length + 10 : Nat) : Int) ((16 : Nat) : Int) 1 junk =
          .ok c := c1
        have hb : RR.bad filter blocked r = blocked (r.rdata.take 16) := by
          simp [RR.bad, t28]
        have hn : (if (r.type : Int) = 1 then 4 else if (r.type : Int) = 28 then 16 else 0) = 16 := by
          rw [if_neg (by omega), if_pos (by omega)]
        simp only [hn]
        rw [if_neg (by omega), c1']
        simp only [checkIp_exact c2, c3, Res.ok_bind]
        have : privateAddr (r.rdata.take 16) = false :=
          privateAddr_len (by simp; omega)
        simp only [this, Bool.and_false, Bool.false_or]
        rw [hb]
        cases blocked (r.rdata.take 16)
        · simpa using hih
        · simp
      · have n1 : ¬ ((r.type : Int) = 1) := by omega
        have n28 : ¬ ((r.type : Int) = 28) := by omega
        have hb : RR.bad filter blocked r = false := by simp [RR.bad, t1, t28]
        simp only [n1, n28, if_false, if_true, hb, Bool.false_or]
        exact hih

/-- **C23.** An upstream answer is refused exactly when one of its answer
records is an A record with a blocked address — in the block list or, with the
filter on, in a private range — or an AAAA record with an address in the block
list. -/
theorem hasBadIp_exact {s : DwStr} (h : Usable s) {p : Packed} (hp : p.Ok) (hne : p.all ≠ [])
    (hc : s.contents = p.enc) (h4 : ∀ r ∈ p.an, r.type = 1 → 4 ≤ r.rdata.length)
    (h16 : ∀ r ∈ p.an, r.type = 28 → 16 ≤ r.rdata.length) (filter : Bool)
    (blocked : List UInt8 → Bool) (junk : List UInt8) :
    hasBadIp filter blocked s junk = .ok (p.an.any (RR.bad filter blocked)) := by
  obtain ⟨d, hd, -, -, han, -⟩ := makeDnsStr_eq h hp hne hc junk
  simp only [hasBadIp, hd, han]
  exact badIpLoop_eq filter blocked junk h p.an (pre := [])
    (post := (p.ns ++ p.ar).flatMap RR.enc ++ (offsets 0 p.all).flatMap Packed.cell ++
      be16 p.an.length ++ be16 p.ns.length ++ be16 p.ar.length ++ [p.kind])
    (fun r hr => hp.recs r (by simp [Packed.all, hr])) h4 h16
    (by rw [hc, Packed.enc]; simp [Packed.all])

end DwStr
end Dw
