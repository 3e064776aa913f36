import Verif.Mara.DecompRec
/-!
# Property C78: a message is decompressed as its bytes say
-/

namespace Mara
namespace Decomp

open Spec
open Dw (Res)
open Comp (Field fields getLabel)
open Lookup (encName_pos)

theorem be16_of (a b : UInt8) : be16 (a.toNat * 256 + b.toNat) = [a, b] := by
  have ha := a.toNat_lt
  have hb := b.toNat_lt
  unfold be16
  congr 1
  · apply UInt8.toNat_inj.1
    rw [UInt8.toNat_ofNat']
    omega
  · congr 1
    apply UInt8.toNat_inj.1
    rw [UInt8.toNat_ofNat']
    omega

theorem be16_num {n : Nat} (h : n < 65536) : (UInt8.ofNat (n / 256)).toNat * 256 + (UInt8.ofNat n).toNat = n := by
  rw [UInt8.toNat_ofNat', UInt8.toNat_ofNat']
  omega

theorem read16_at {c : List UInt8} {off n : Nat} (h : BytesAt (memOf c) off (be16 n)) (hn : n < 65536) : read16 c off = .ok n := by
  have h0 : c[off]? = some (UInt8.ofNat (n / 256)) := h 0 (by simp [be16])
  have h1 : c[off + 1]? = some (UInt8.ofNat n) := h 1 (by simp [be16])
  unfold read16
  rw [h0, h1]
  simp only [be16_num hn]

theorem read16_inv {c : List UInt8} {off n : Nat} (h : read16 c off = .ok n) : BytesAt (memOf c) off (be16 n) ∧ n < 65536 ∧ off + 2 ≤ c.length := by
  unfold read16 at h
  cases h0 : c[off]? with
  | none => rw [h0] at h; cases h
  | some a =>
    cases h1 : c[off + 1]? with
    | none => rw [h0, h1] at h; cases h
    | some b =>
      rw [h0, h1] at h
      cases h
      have ha := a.toNat_lt
      have hb := b.toNat_lt
      refine ⟨?_, by omega, by have := memOf_lt h1; omega⟩
      rw [be16_of]
      intro j hj
      match j, hj with
      | 0, _ => exact h0
      | 1, _ => exact h1
      | j + 2, hj => simp only [List.length_cons, List.length_nil] at hj; omega

theorem be32_of (a b c d : UInt8) : ∃ n, n < 4294967296 ∧ be32 n = [a, b, c, d] := by
  have ha := a.toNat_lt
  have hb := b.toNat_lt
  have hc := c.toNat_lt
  have hd := d.toNat_lt
  refine ⟨(a.toNat * 256 + b.toNat) * 65536 + (c.toNat * 256 + d.toNat), by omega, ?_⟩
  unfold be32
  rw [show ((a.toNat * 256 + b.toNat) * 65536 + (c.toNat * 256 + d.toNat)) / 65536 = a.toNat * 256 + b.toNat by omega,
    show ((a.toNat * 256 + b.toNat) * 65536 + (c.toNat * 256 + d.toNat)) % 65536 = c.toNat * 256 + d.toNat by omega, be16_of, be16_of]
  rfl

theorem enc_eq (r : Rec) : r.toRR.enc = encName r.name ++ (be16 r.type ++ r.cls ++ be32 r.ttl) ++ be16 r.rdata.length ++ r.rdata := by
  simp [RR.enc, Rec.toRR]

theorem record_run {c out : List UInt8} {um rm off e : Nat} {r : Rec} (hr : Fine r) (h : RecVia (Legible (memOf c)) (memOf c) off r e)
    (hm : r.rdata.length < rm) (hu : out.length + r.toRR.enc.length < um) : record c um rm out off = .ok (out ++ r.toRR.enc, e) := by
  obtain ⟨a, k, h1, h2, h3, h4, h5, h6, h7, h8, h9⟩ := h.at_
  have hlt := ends_lt h2
  have hcls := hr.ok.cls
  have h8l : (be16 r.type ++ r.cls ++ be32 r.ttl).length = 8 := by simp [be16, be32, hcls]
  have b2 : ∀ n, (be16 n).length = 2 := fun _ => rfl
  rw [enc_eq] at hu ⊢
  simp only [List.length_append] at hu h8l
  rw [b2] at hu h8l
  obtain ⟨h10, h11⟩ := bytesAt_append.1 h3
  have h12 := (bytesAt_append.1 (bytesAt_append.1 h10).1).1
  unfold record
  rw [appendName_legible h1 h2 (by omega), Dw.Res.ok_bind]
  dsimp only
  rw [if_neg (by omega), show off + (a - off) = a by omega, read16_at h12 hr.ok.type, Dw.Res.ok_bind]
  have e8 : (be16 r.type ++ r.cls ++ be32 r.ttl).length = 8 := by simp [be16, be32, hcls]
  have h13 := appendBytes_at (out := out ++ encName r.name) (max := um) h10 (by omega) (by rw [e8, List.length_append]; omega)
  rw [e8] at h13 h11
  rw [h13, Dw.Res.ok_bind, read16_at h11 h4, Dw.Res.ok_bind]
  subst h9
  rw [rddata_run hr h6 h7 h8 hm, Dw.Res.ok_bind]
  have hl : (out ++ encName r.name ++ (be16 r.type ++ r.cls ++ be32 r.ttl)).length = out.length + (encName r.name).length + 8 := by
    rw [List.length_append, List.length_append, e8]
  rw [hl, if_neg (by simp only [List.length_append, be16, be32, List.length_cons, List.length_nil] at hu; omega), if_neg (by simp only [List.length_append, be16, be32, List.length_cons, List.length_nil] at hu; omega), show a + 10 + (k + r.tail.length - (a + 10)) = k + r.tail.length by omega]
  simp only [List.append_assoc]
  rfl

theorem record_inv {c out out' : List UInt8} (hc : ¬ Overlong c) {um rm off e : Nat} (hum : um ≤ 65536)
    (h : record c um rm out off = .ok (out', e)) :
    ∃ r, Fine r ∧ RecVia (NameIn (memOf c)) (memOf c) off r e ∧ out' = out ++ r.toRR.enc ∧ e ≤ c.length := by
  unfold record at h
  cases h1 : appendName c um out off with
  | ub => rw [h1] at h; cases h
  | err => rw [h1] at h; cases h
  | ok x =>
    obtain ⟨o1, len⟩ := x
    rw [h1, Dw.Res.ok_bind] at h
    dsimp only at h
    obtain ⟨ls, a, n1, n2, rfl, rfl, _⟩ := appendName_inv hc h1
    have hlt := ends_lt n2
    rw [if_neg (by omega), show off + (a - off) = a by omega] at h
    cases h2 : read16 c a with
    | ub => rw [h2] at h; cases h
    | err => rw [h2] at h; cases h
    | ok type =>
      obtain ⟨t1, t2, _⟩ := read16_inv h2
      rw [h2, Dw.Res.ok_bind] at h
      cases h3 : appendBytes c um (out ++ encName ls) a 8 with
      | ub => rw [h3] at h; cases h
      | err => rw [h3] at h; cases h
      | ok o2 =>
        obtain ⟨x, x1, x2, rfl, _, x5⟩ := appendBytes_inv h3
        rw [h3, Dw.Res.ok_bind] at h
        cases h4 : read16 c (a + 8) with
        | ub => rw [h4] at h; cases h
        | err => rw [h4] at h; cases h
        | ok rdlen =>
          obtain ⟨d1, d2, d3⟩ := read16_inv h4
          rw [h4, Dw.Res.ok_bind] at h
          cases h5 : rddata c rm (a + 10) type rdlen with
          | ub => rw [h5] at h; cases h
          | err => rw [h5] at h; cases h
          | ok d =>
            rw [h5, Dw.Res.ok_bind] at h
            split at h
            · cases h
            · split at h
              · cases h
              · rename_i hs1 hs2
                cases h
                obtain ⟨lead, names, tail, k, r1, r2, r3, r4, r5, r6, r7, r8, r9⟩ := rddata_inv hc (by omega) h5
                obtain ⟨y0, y1, y2, y3, y4, y5, y6, y7, rfl⟩ : ∃ a b c d e f g i, x = [a, b, c, d, e, f, g, i] := by
                  match x, x1 with
                  | [a, b, c, d, e, f, g, i], _ => exact ⟨a, b, c, d, e, f, g, i, rfl⟩
                obtain ⟨ttl, w1, w2⟩ := be32_of y4 y5 y6 y7
                have ht : be16 type = [y0, y1] := by
                  have e0 := x2 0 (by simp)
                  have e1 := x2 1 (by simp)
                  have f0 := t1 0 (by simp [be16])
                  have f1 := t1 1 (by simp [be16])
                  rw [e0] at f0
                  rw [e1] at f1
                  simp only [Option.some.injEq] at f0 f1
                  simp only [be16, List.getElem_cons_zero, List.getElem_cons_succ] at f0 f1 ⊢
                  rw [← f0, ← f1]
                have hx : [y0, y1, y2, y3, y4, y5, y6, y7] = be16 type ++ [y2, y3] ++ be32 ttl := by rw [ht, w2]; rfl
                refine ⟨⟨ls, type, [y2, y3], ttl, lead, names, tail⟩, ⟨⟨t2, rfl, w1, ?_, r7⟩, r8, r9⟩, ⟨⟨a, k, n1, n2, ?_, ?_, ?_, r1, r2, r3, ?_⟩⟩, ?_, by omega⟩
                · change (lead ++ names.flatMap encName ++ tail).length < _
                  rw [← r5]
                  omega
                · rw [bytesAt_append]
                  simp only
                  rw [← hx]
                  refine ⟨x2, ?_⟩
                  rw [show a + 10 + rdlen - (a + 10) = rdlen by omega]
                  exact d1
                · omega
                · omega
                · simp only
                  omega
                · rw [enc_eq]
                  simp only [Rec.rdata]
                  rw [← r5, hx]
                  simp [be16]

theorem records_run {c : List UInt8} {um rm off e : Nat} {rs : List Rec} (h : RecsVia (Legible (memOf c)) (memOf c) off rs e) :
    ∀ (out : List UInt8), (∀ r ∈ rs, Fine r ∧ r.rdata.length < rm) → out.length + ((rs.map Rec.toRR).flatMap RR.enc).length < um →
      records c um rm rs.length out off = .ok (out ++ (rs.map Rec.toRR).flatMap RR.enc) := by
  induction h with
  | nil => intro out _ _; simp [records]
  | @cons i e k r rs h1 h2 ih =>
    intro out hr hu
    rw [List.map_cons, List.flatMap_cons, List.length_append] at hu
    rw [List.length_cons, records, record_run (hr r (by simp)).1 h1 (hr r (by simp)).2 (by omega), Dw.Res.ok_bind]
    dsimp only
    rw [ih _ (fun x hx => hr x (by simp [hx])) (by rw [List.length_append]; omega), List.map_cons, List.flatMap_cons, List.append_assoc]

theorem records_inv {c : List UInt8} (hc : ¬ Overlong c) {um rm : Nat} (hum : um ≤ 65536) : ∀ (n : Nat) (out u : List UInt8) (off : Nat),
    off ≤ c.length → records c um rm n out off = .ok u →
    ∃ rs e, rs.length = n ∧ (∀ r ∈ rs, Fine r) ∧ RecsVia (NameIn (memOf c)) (memOf c) off rs e ∧ e ≤ c.length ∧
      u = out ++ (rs.map Rec.toRR).flatMap RR.enc
  | 0, out, u, off, ho, h => by
    rw [records] at h
    cases h
    exact ⟨[], off, rfl, by simp, .nil, ho, by simp⟩
  | n + 1, out, u, off, ho, h => by
    rw [records] at h
    cases h1 : record c um rm out off with
    | ub => rw [h1] at h; cases h
    | err => rw [h1] at h; cases h
    | ok x =>
      obtain ⟨o, e⟩ := x
      rw [h1, Dw.Res.ok_bind] at h
      dsimp only at h
      obtain ⟨r, r1, r2, rfl, r4⟩ := record_inv hc hum h1
      obtain ⟨rs, k, g1, g2, g3, g4, g5⟩ := records_inv hc hum n _ _ _ r4 h
      refine ⟨r :: rs, k, by simp [g1], ?_, .cons r2 g3, g4, by rw [g5]; simp⟩
      intro x hx
      rcases List.mem_cons.1 hx with rfl | hx
      · exact r1
      · exact g2 x hx

theorem count_be {l : List UInt8} {i : Nat} (h : i + 1 < l.length) : read16 l i = .ok (Parcel.count l i) := by
  unfold read16 Parcel.count
  simp only [List.getElem?_eq_getElem h, List.getElem?_eq_getElem (show i < l.length by omega), List.getD_eq_getElem?_getD, Option.getD_some]

theorem count_prefix {h c : List UInt8} (hp : h <+: c) {i : Nat} (hi : i + 1 < h.length) : read16 c i = .ok (Parcel.count h i) := by
  obtain ⟨t, rfl⟩ := hp
  rw [← count_be hi]
  unfold read16
  rw [List.getElem?_append_left (by omega), List.getElem?_append_left hi]

/-- **C78.**  Decompressing a message gives this message with all names written out. -/
theorem decompress_exact {p : Parcel} (hp : p.Ok) {c : List UInt8} (hc : p.Via (Legible (memOf c)) c) {um rm : Nat}
    (hum : p.bytes.length < um) (hrm : ∀ r ∈ p.recs, r.rdata.length < rm) : decompress c um rm = .ok p.bytes := by
  have hhead := hp.head
  have hpre := hc.head
  have hlen : 12 ≤ c.length := by have := hpre.length_le; omega
  have happ : ∀ out : List UInt8, appendBytes c um [] 0 12 = .ok p.head := by
    intro out
    have : BytesAt (memOf c) 0 p.head := by
      intro j hj
      obtain ⟨t, rfl⟩ := hpre
      change (p.head ++ t)[0 + j]? = _
      rw [Nat.zero_add, List.getElem?_append_left hj, List.getElem?_eq_getElem hj]
    have h := appendBytes_at (out := []) (max := um) this (by omega) (by unfold Parcel.bytes at hum; simp only [List.length_append] at hum; simp; omega)
    rwa [hhead, List.nil_append] at h
  obtain ⟨a, e, h1, h2, h3⟩ := hc.body
  have hq := hp.question
  unfold decompress
  rw [if_neg (by omega), count_prefix hpre (by omega), Dw.Res.ok_bind, count_prefix hpre (by omega), Dw.Res.ok_bind,
    count_prefix hpre (by omega), Dw.Res.ok_bind, count_prefix hpre (by omega), Dw.Res.ok_bind, ← hp.recs]
  have hfine : ∀ r ∈ p.recs, Fine r ∧ r.rdata.length < rm := fun r hr => ⟨⟨hp.data r hr, hp.a r hr, hp.txt r hr⟩, hrm r hr⟩
  rw [hq]
  cases hqq : p.question with
  | none =>
    rw [hqq] at h1
    simp only at h1
    subst h1
    unfold Parcel.bytes at hum ⊢
    rw [hqq] at hum ⊢
    simp only [List.append_nil, List.length_append] at hum ⊢
    simp only [Option.isSome_none, Bool.false_eq_true, if_false]
    rw [if_neg (by omega), happ [], Dw.Res.ok_bind, if_pos trivial, records_run h2 _ hfine (by omega)]
  | some x =>
    obtain ⟨n, t⟩ := x
    rw [hqq] at h1
    simp only at h1
    obtain ⟨k, k1, k2, k3, rfl⟩ := h1
    have ht : t.length = 4 := hp.class_ _ hqq
    have hlt := ends_lt k2
    unfold Parcel.bytes at hum ⊢
    rw [hqq] at hum ⊢
    simp only [List.length_append] at hum ⊢
    simp only [Option.isSome_some, if_true]
    have k4 := appendBytes_at (out := p.head ++ encName n) (max := um) k3 (by omega) (by rw [List.length_append]; omega)
    rw [ht] at k4
    rw [if_neg (by omega), happ [], Dw.Res.ok_bind, if_neg (by omega), question, appendName_legible k1 k2 (by omega)]
    simp only [Dw.Res.ok_bind]
    rw [if_neg (by omega), show 12 + (k - 12) = k by omega, k4]
    simp only [Dw.Res.ok_bind]
    rw [show 12 + (k - 12 + 4) = k + t.length by omega, records_run h2 _ hfine (by simp only [List.length_append]; omega)]
    simp

/-- **C78.**  What comes out of decompression is a message with all names written out, and it is the message in the bytes,
unless these hold a name of more than 255 bytes. -/
theorem decompress_sound_partial {c u : List UInt8} {um rm : Nat} (hum : um ≤ 65536) (h : decompress c um rm = .ok u) :
    (∃ p : Parcel, p.Ok ∧ p.Via (NameIn (memOf c)) c ∧ u = p.bytes) ∨ Overlong c := by
  by_cases hc : Overlong c
  · exact .inr hc
  left
  unfold decompress at h
  split at h
  · cases h
  rename_i hlen
  rw [count_be (by omega), count_be (by omega), count_be (by omega), count_be (by omega)] at h
  simp only [Dw.Res.ok_bind] at h
  split at h
  · cases h
  rename_i hqd
  have hcount : ∀ i, i + 1 < 12 → Parcel.count (c.take 12) i = Parcel.count c i := by
    intro i hi
    unfold Parcel.count
    simp only [List.getD_eq_getElem?_getD]
    rw [List.getElem?_take_of_lt (by omega), List.getElem?_take_of_lt (by omega)]
  cases ha : appendBytes c um [] 0 12 with
  | ub => rw [ha] at h; cases h
  | err => rw [ha] at h; cases h
  | ok o =>
    rw [ha, Dw.Res.ok_bind] at h
    have ho : o = c.take 12 := by
      unfold appendBytes at ha
      split at ha
      · cases ha
      · split at ha
        · cases ha
        · split at ha
          · cases ha
          · cases ha; simp
    subst ho
    have h12 : (c.take 12).length = 12 := by rw [List.length_take]; omega
    split at h
    · rename_i hq0
      obtain ⟨rs, e, g1, g2, g3, g4, g5⟩ := records_inv hc hum _ _ _ _ (by omega) h
      refine ⟨⟨c.take 12, none, rs⟩, ⟨h12, ?_, ?_, ?_, fun r hr => (g2 r hr).ok, fun r hr => (g2 r hr).a, fun r hr => (g2 r hr).txt⟩,
        ⟨List.take_prefix _ _, 12, e, rfl, g3, g4⟩, ?_⟩
      · simp only [hcount 4 (by omega), hq0]; rfl
      · intro x hx; cases hx
      · simp only [hcount 6 (by omega), hcount 8 (by omega), hcount 10 (by omega), g1]
      · rw [g5]; simp [Parcel.bytes]
    · rename_i hq0
      cases hq : question c um (c.take 12) with
      | ub => rw [hq] at h; cases h
      | err => rw [hq] at h; cases h
      | ok x =>
        obtain ⟨o, len⟩ := x
        rw [hq, Dw.Res.ok_bind] at h
        dsimp only at h
        unfold question at hq
        cases h1 : appendName c um (c.take 12) 12 with
        | ub => rw [h1] at hq; cases hq
        | err => rw [h1] at hq; cases hq
        | ok x =>
          obtain ⟨o1, len1⟩ := x
          rw [h1, Dw.Res.ok_bind] at hq
          dsimp only at hq
          obtain ⟨ls, a, n1, n2, rfl, rfl, _⟩ := appendName_inv hc h1
          have hlt := ends_lt n2
          rw [if_neg (by omega), show 12 + (a - 12) = a by omega] at hq
          cases h2 : appendBytes c um (c.take 12 ++ encName ls) a 4 with
          | ub => rw [h2] at hq; cases hq
          | err => rw [h2] at hq; cases hq
          | ok o2 =>
            obtain ⟨t, x1, x2, rfl, _, x5⟩ := appendBytes_inv h2
            rw [h2, Dw.Res.ok_bind] at hq
            cases hq
            rw [show 12 + (a - 12 + 4) = a + 4 by omega] at h
            obtain ⟨rs, e, g1, g2, g3, g4, g5⟩ := records_inv hc hum _ _ _ _ (by omega) h
            refine ⟨⟨c.take 12, some (ls, t), rs⟩, ⟨h12, ?_, ?_, ?_, fun r hr => (g2 r hr).ok, fun r hr => (g2 r hr).a, fun r hr => (g2 r hr).txt⟩,
              ⟨List.take_prefix _ _, a + 4, e, ⟨a, n1, n2, x2, by omega⟩, g3, g4⟩, ?_⟩
            · simp only [hcount 4 (by omega), Option.isSome_some, if_true]; omega
            · intro x hx; cases hx; exact x1
            · simp only [hcount 6 (by omega), hcount 8 (by omega), hcount 10 (by omega), g1]
            · rw [g5]; simp [Parcel.bytes]

theorem appendBytes_def (c : List UInt8) (max : Nat) (out : List UInt8) (off len : Nat) : appendBytes c max out off len ≠ .ub := by
  unfold appendBytes
  split
  · simp
  · split
    · simp
    · split <;> simp

theorem appendName_def (c : List UInt8) (max : Nat) (out : List UInt8) (off : Nat) : appendName c max out off ≠ .ub := by
  unfold appendName
  split
  · simp
  · split
    · simp
    · split
      · simp
      · split <;> simp

theorem read16_def (c : List UInt8) (off : Nat) : read16 c off ≠ .ub := by
  unfold read16
  split <;> simp

theorem bind_def {α β : Type} {x : Res α} {f : α → Res β} (hx : x ≠ .ub) (hf : ∀ a, x = .ok a → f a ≠ .ub) : (x >>= f) ≠ .ub := by
  cases x with
  | ub => exact absurd rfl hx
  | err => intro h; cases h
  | ok a => exact hf a rfl

/-- No text field behind the first field. -/
theorem runFields_def (c : List UInt8) (rm rdlen : Nat) : ∀ (fs : List Field), Field.text ∉ fs → ∀ (out : List UInt8) (off total : Nat),
    runFields c rm rdlen fs out off total ≠ .ub
  | [], _, _, _, _ => by simp [runFields]
  | .fixed n :: fs, h, out, off, total => by
    rw [runFields]
    exact bind_def (appendBytes_def _ _ _ _ _) fun _ _ => runFields_def c rm rdlen fs (fun hm => h (by simp [hm])) _ _ _
  | .name :: fs, h, out, off, total => by
    rw [runFields]
    exact bind_def (appendName_def _ _ _ _) fun x _ => runFields_def c rm rdlen fs (fun hm => h (by simp [hm])) _ _ _
  | .text :: fs, h, out, off, total => absurd (by simp) h
  | .rest :: fs, h, out, off, total => by
    rw [runFields]
    split
    · simp
    · exact bind_def (appendBytes_def _ _ _ _ _) fun _ _ => by simp

theorem rddata_def (c : List UInt8) (rm off type rdlen : Nat) (hoff : off ≤ c.length) : rddata c rm off type rdlen ≠ .ub := by
  unfold rddata
  cases hl : rdLayout type with
  | some x =>
    obtain ⟨l, n, t⟩ := x
    obtain ⟨A, B, cmp, hf, -⟩ := Comp.fields_known hl
    rw [hf]
    simp only
    refine bind_def (runFields_def c rm rdlen _ ?_ _ _ _) fun x _ => ?_
    · intro hm
      simp only [List.mem_append, List.mem_map, reduceCtorEq, and_false, exists_false, or_false, false_or] at hm
      exact absurd (List.eq_of_mem_replicate hm) (by simp)
    · split <;> simp
  | none =>
    rcases Comp.fields_unknown hl with ht | ht | ht
    · subst ht
      simp only [fields]
      refine bind_def (runFields_def c rm rdlen _ (by simp) _ _ _) fun x _ => ?_
      split <;> simp
    · subst ht
      simp only [fields]
      refine bind_def ?_ fun x _ => ?_
      · rw [runFields]
        split
        · rw [if_pos (by omega)]; simp
        · exact bind_def (appendBytes_def _ _ _ _ _) fun _ _ => runFields_def c rm rdlen [.rest] (by simp) _ _ _
      · split <;> simp
    · rw [ht]
      simp only
      split
      · simp
      · exact appendBytes_def _ _ _ _ _

theorem record_def (c : List UInt8) (um rm : Nat) (out : List UInt8) (off : Nat) : record c um rm out off ≠ .ub := by
  unfold record
  refine bind_def (appendName_def _ _ _ _) fun x _ => ?_
  dsimp only
  split
  · simp
  refine bind_def (read16_def _ _) fun _ _ => ?_
  refine bind_def (appendBytes_def _ _ _ _ _) fun _ _ => ?_
  refine bind_def (read16_def _ _) fun n hn => ?_
  refine bind_def (rddata_def _ _ _ _ _ (by have := (read16_inv hn).2.2; omega)) fun _ _ => ?_
  split
  · simp
  · split <;> simp

theorem records_def (c : List UInt8) (um rm : Nat) : ∀ (n : Nat) (out : List UInt8) (off : Nat), records c um rm n out off ≠ .ub
  | 0, _, _ => by simp [records]
  | n + 1, out, off => by
    rw [records]
    exact bind_def (record_def _ _ _ _ _) fun x _ => records_def c um rm n _ _

/-- **C78.**  Whatever the bytes are, nothing behind the end of a string is read or written. -/
theorem decompress_safe (c : List UInt8) (um rm : Nat) : decompress c um rm ≠ .ub := by
  unfold decompress
  split
  · simp
  refine bind_def (read16_def _ _) fun _ _ => ?_
  refine bind_def (read16_def _ _) fun _ _ => ?_
  refine bind_def (read16_def _ _) fun _ _ => ?_
  refine bind_def (read16_def _ _) fun _ _ => ?_
  split
  · simp
  refine bind_def (appendBytes_def _ _ _ _ _) fun _ _ => ?_
  split
  · exact records_def _ _ _ _ _ _
  · refine bind_def ?_ fun x _ => records_def _ _ _ _ _ _
    unfold question
    refine bind_def (appendName_def _ _ _ _) fun x _ => ?_
    dsimp only
    split
    · simp
    · exact bind_def (appendBytes_def _ _ _ _ _) fun _ _ => by simp

end Decomp
end Mara
