import Verif.Deadwood.DnsStrProps
/-! # Cached answers: rotation and lower-casing (C24, C26) -/

namespace Dw
open Spec
namespace DwStr

/-! ## C26 -/

/-- A table line moved down by `d`. -/
def shiftCell (d : Nat) (c : Nat × Nat) : Nat × Nat := (c.1 - d, c.2 - d)

theorem u16_sub {a d : Nat} (h : d ≤ a) (ha : a < 65536) : u16 ((a : Int) - d) = a - d := by
  unfold u16; omega

theorem put_cell {s : DwStr} (h : Usable s) {pre post old : List UInt8} {a b : Nat}
    (ho : old.length = 4) (hc : s.contents = pre ++ old ++ post)
    (hlen : s.contents.length ≤ 16777215) :
    ∃ s1 s2, s.putU16 a (pre.length : Nat) = .ok s1 ∧ s1.putU16 b (pre.length + 2 : Nat) = .ok s2 ∧
      Usable s2 ∧ s2.max = s.max ∧ s2.contents = pre ++ Packed.cell (a, b) ++ post := by
  obtain ⟨w, x, y, z, rfl⟩ : ∃ w x y z, old = [w, x, y, z] := by
    match old, ho with
    | [w, x, y, z], _ => exact ⟨w, x, y, z, rfl⟩
  obtain ⟨s1, h1, u1, m1, c1⟩ := put_be16 h (v := a) (pre := pre) (old := [w, x])
    (post := [y, z] ++ post) rfl (by rw [hc]; simp) hlen (i := (pre.length : Nat)) rfl
  obtain ⟨s2, h2, u2, m2, c2⟩ := put_be16 u1 (v := b) (pre := pre ++ be16 a) (old := [y, z])
    (post := post) rfl (by rw [c1]; simp)
    (by rw [c1]; rw [hc] at hlen; simp [be16] at hlen ⊢; omega)
    (i := (pre.length + 2 : Nat)) (by simp [be16])
  exact ⟨s1, s2, h1, h2, u2, by rw [m2, m1], by rw [c2]; simp [Packed.cell]⟩

theorem rotateLoop_eq (tbl d : Nat) : ∀ (rest : List (Nat × Nat)) {s : DwStr} {pre old post : List UInt8}
    (t : Nat), Usable s → old.length = 4 → pre.length = tbl + t * 4 →
    (∀ c ∈ rest, c.1 < 65536 ∧ c.2 < 65536 ∧ d ≤ c.1 ∧ d ≤ c.2) →
    s.contents = pre ++ old ++ rest.flatMap Packed.cell ++ post →
    s.contents.length ≤ 16777215 →
    ∃ s' old', rotateLoop tbl d rest.length t s = .ok s' ∧ Usable s' ∧ s'.max = s.max ∧
      old'.length = 4 ∧
      s'.contents = pre ++ (rest.map (shiftCell d)).flatMap Packed.cell ++ old' ++ post := by
  intro rest
  induction rest with
  | nil =>
    intro s pre old post t h ho _ _ hc _
    exact ⟨s, old, rfl, h, rfl, ho, by simpa using hc⟩
  | cons c rest ih =>
    intro s pre old post t h ho hp hb hc hlen
    obtain ⟨b1, b2, b3, b4⟩ := hb c (by simp)
    simp only [List.flatMap_cons, Packed.cell] at hc
    have f1 : s.fetchU16 ((tbl + (t + 1) * 4 : Nat) : Int) = .ok c.1 :=
      fetch_be16 h b1 (pre := pre ++ old) (post := be16 c.2 ++ rest.flatMap Packed.cell ++ post)
        (by rw [hc]; simp) (by simp [ho, hp]; omega)
    have f2 : s.fetchU16 ((tbl + 2 + (t + 1) * 4 : Nat) : Int) = .ok c.2 :=
      fetch_be16 h b2 (pre := pre ++ old ++ be16 c.1) (post := rest.flatMap Packed.cell ++ post)
        (by rw [hc]; simp) (by simp [ho, hp, be16]; omega)
    obtain ⟨s1, s2, p1, p2, u2, m2, c2⟩ := put_cell h (a := c.1 - d) (b := c.2 - d) ho
      (pre := pre) (post := Packed.cell c ++ rest.flatMap Packed.cell ++ post)
      (by rw [hc]; simp [Packed.cell]) hlen
    have hl2 : s2.contents.length ≤ 16777215 := by
      rw [c2]; rw [hc] at hlen; simp [Packed.cell, be16, ho] at hlen ⊢; omega
    obtain ⟨s3, old3, h3, u3, m3, l3, c3⟩ := ih (t + 1) u2 (old := Packed.cell c)
      (pre := pre ++ Packed.cell (c.1 - d, c.2 - d)) (post := post) (by simp [Packed.cell, be16])
      (by simp [Packed.cell, be16, hp]; omega) (fun x hx => hb x (by simp [hx]))
      (by rw [c2]; simp) hl2
    refine ⟨s3, old3, ?_, u3, by rw [m3, m2], l3, ?_⟩
    · rw [List.length_cons, rotateLoop, f1, Res.ok_bind, f2, Res.ok_bind, u16_sub b3 b1,
        u16_sub b4 b2]
      have e1 : ((tbl + t * 4 : Nat) : Int) = (pre.length : Nat) := by rw [hp]
      have e2 : ((tbl + 2 + t * 4 : Nat) : Int) = (pre.length + 2 : Nat) := by rw [hp]; omega
      rw [e1, orElse_ok _ p1, Res.ok_bind, e2, orElse_ok _ p2, Res.ok_bind]
      exact h3
    · rw [c3]; simp [shiftCell]

theorem offsets_shift (d : Nat) (rs : List RR) : ∀ pos,
    offsets pos rs = (offsets (pos + d) rs).map (shiftCell d) := by
  induction rs with
  | nil => intro pos; rfl
  | cons r rs ih =>
    intro pos
    simp only [offsets, List.map_cons, shiftCell]
    rw [ih (pos + r.size)]
    congr 1
    · simp only [Prod.mk.injEq]; omega
    · congr 2; omega

theorem offsets_ge (rs : List RR) : ∀ pos, ∀ c ∈ offsets pos rs, pos ≤ c.1 ∧ pos ≤ c.2 := by
  induction rs with
  | nil => intro pos c hc; simp [offsets] at hc
  | cons r rs ih =>
    intro pos c hc
    rw [offsets, List.mem_cons] at hc
    rcases hc with rfl | hc
    · simp
    · have := ih _ c hc; omega

theorem getType_eq {s : DwStr} (h : Usable s) {pre post : List UInt8} {r : RR} (ro : r.Ok)
    (hc : s.contents = pre ++ r.enc ++ post) :
    s.getType (pre.length, pre.length + r.name.length) =
      .ok (if reserved r.type then 65393 else r.type) := by
  have hf : s.fetchU16 ((pre.length + r.name.length : Nat) : Int) = .ok r.type :=
    fetch_be16 h ro.type (pre := pre ++ r.name)
      (post := r.cls ++ be32 r.ttl ++ r.rdlen ++ r.rdata ++ post)
      (by rw [hc]; simp [RR.enc]) (by simp)
  have hl := h.clen
  rw [hc] at hl
  have : ¬ s.len < pre.length + r.name.length := by
    rw [← hl]; simp [RR.enc]
  rw [getType, if_neg this]
  simp only [hf, reserved]
  by_cases hr : 65392 ≤ r.type ∧ r.type ≤ 65407
  · simp [hr]
  · rw [if_neg hr]
    have : (decide (65392 ≤ r.type) && decide (r.type ≤ 65407)) = false := by
      simpa using hr
    simp [this]

theorem rrFindLoop_eq {s : DwStr} (h : Usable s) : ∀ (rs : List RR) {pre post : List UInt8} (rr : Nat),
    (∀ r ∈ rs, r.Ok) → s.contents = pre ++ rs.flatMap RR.enc ++ post →
    rrFindLoop s (offsets pre.length rs) rr =
      match rs.dropWhile (fun r => r.type == 5) with
      | [] => .ok (rr + rs.length)
      | r :: _ => if reserved r.type then .err
        else .ok (rr + (rs.takeWhile (fun r => r.type == 5)).length + 1) := by
  intro rs
  induction rs with
  | nil => intro pre post rr _ _; rfl
  | cons r rs ih =>
    intro pre post rr hok hc
    have ro := hok r (by simp)
    have hg := getType_eq h ro (pre := pre) (post := rs.flatMap RR.enc ++ post)
      (by rw [hc]; simp)
    have htlt := ro.type
    by_cases h5 : r.type = 5
    · have hg' : s.getType (pre.length, pre.length + r.name.length) = .ok 5 := by
        rw [hg]; simp [h5, reserved]
      have hih := ih (pre := pre ++ r.enc) (post := post) (rr + 1) (fun x hx => hok x (by simp [hx]))
        (by rw [hc]; simp)
      rw [List.length_append, RR.enc_length ro] at hih
      have hdw : (r :: rs).dropWhile (fun r => r.type == 5) = rs.dropWhile (fun r => r.type == 5) := by
        simp [h5]
      have htw : (r :: rs).takeWhile (fun r => r.type == 5) =
          r :: rs.takeWhile (fun r => r.type == 5) := by
        simp [h5]
      rw [hdw, htw, offsets, rrFindLoop, hg', Res.ok_bind, if_neg (by omega), if_pos rfl, hih]
      rcases hdd : rs.dropWhile (fun r => r.type == 5) with _ | ⟨x, l⟩ <;> simp only [hdd]
      · congr 1; simp; omega
      · split_ifs
        · rfl
        · congr 1; simp; omega
    · simp only [offsets, rrFindLoop, hg, Res.ok_bind]
      have hbeq : (r.type == 5) = false := by simpa using h5
      simp only [List.dropWhile_cons, List.takeWhile_cons, hbeq, Bool.false_eq_true, if_false,
        List.length_nil, Nat.add_zero]
      by_cases hres : reserved r.type = true
      · simp [hres]
      · have hne : ¬ r.type = 65393 := by
          intro hh; apply hres; simp [reserved, hh]
        simp [hres, hne, h5]

/-- Where the answers lie. -/
theorem fin_eq {p : Packed} {n : Int} (hn : n = sizes p.all + p.all.length * 4 + 7) :
    answersEnd n p.an.length (offsets (sizes p.an) p.ns) (offsets (sizes p.an + sizes p.ns) p.ar) =
      ((sizes p.an : Nat) : Int) := by
  rcases hns : p.ns with _ | ⟨x, l⟩
  · rcases har : p.ar with _ | ⟨y, m⟩
    · simp only [offsets, answersEnd]
      have : p.all = p.an := by simp [Packed.all, hns, har]
      rw [this] at hn
      omega
    · simp only [offsets, sizes, answersEnd]; simp
  · simp only [offsets, answersEnd]

/-- **C26.** Rotating a cached answer moves its first non-CNAME answer record
behind the other answers, rewrites the offset table accordingly and changes
nothing else; when that is not possible (fewer than two records to rotate, a
reserved record type, or authority/additional records present) the rotation is
refused.  In particular the answers are a permutation of the old ones. -/
theorem rrRotate_exact {s : DwStr} (h : Usable s) {p : Packed} (hp : p.Ok) (hne : p.all ≠ [])
    (hc : s.contents = p.enc) (junk : List UInt8) :
    match p.rotated with
    | none => s.rrRotate junk = .err
    | some q => ∃ s', s.rrRotate junk = .ok s' ∧ Usable s' ∧ s'.max = s.max ∧ s'.contents = q.enc ∧
        q.an.Perm p.an ∧ q.ns = p.ns ∧ q.ar = p.ar ∧ q.kind = p.kind := by
  obtain ⟨d, hd, hdu, hdc, han, hns, har, -⟩ := makeDnsStr_eq h hp hne hc junk
  have hlen := hp.enc_length
  have hcl := h.clen
  rw [hc, hlen] at hcl
  have hsz := hp.size
  have hcnt := count_le p.all
  have hlan : d.an.length = p.an.length := by rw [han, offsets_length]
  have hlns : d.ns.length = p.ns.length := by rw [hns, offsets_length]
  have hlar : d.ar.length = p.ar.length := by rw [har, offsets_length]
  have hokan : ∀ r ∈ p.an, r.Ok := fun r hr => hp.recs r (by simp [Packed.all, hr])
  have hfind := rrFindLoop_eq hdu p.an (pre := []) (post := (p.ns ++ p.ar).flatMap RR.enc ++
      (offsets 0 p.all).flatMap Packed.cell ++
      be16 p.an.length ++ be16 p.ns.length ++ be16 p.ar.length ++ [p.kind]) 0 hokan
    (by rw [hdc, Packed.enc]; simp [Packed.all])
  simp only [List.length_nil] at hfind
  have hsplit : p.an = p.an.takeWhile (fun r => r.type == 5) ++ p.an.dropWhile (fun r => r.type == 5) :=
    (List.takeWhile_append_dropWhile).symm
  generalize hpre : p.an.takeWhile (fun r => r.type == 5) = pre at hsplit hfind
  -- the common part
  have step : ∀ rr, rrFind d = .ok rr → rr + 1 < p.an.length →
      s.rrRotate junk = (do
        let s1 ← s.rotate (d.an.getD rr (0, 0)).1 (d.an.getD (rr + 1) (0, 0)).1 (sizes p.an) junk
        rotateOffsets s1 ((s1.len : Int) - 7 - (p.an.length + p.ns.length + p.ar.length : Nat) * 4).toNat
          rr p.an.length) := by
    intro rr hrr hlt
    rw [rrRotate, hd, Res.ok_bind, if_neg (by rw [hlan]; omega), hrr, Res.ok_bind,
      if_neg (by rw [hlan]; omega)]
    have hfin := fin_eq (p := p) (n := (s.len : Int)) (by omega)
    rw [hns, har] at *
    simp only [hlan, offsets_length]
    rw [hfin, if_neg (by omega)]
    rfl
  rcases hdw : p.an.dropWhile (fun r => r.type == 5) with _ | ⟨r, _ | ⟨q, post⟩⟩
  · -- only CNAMEs (or no answers)
    rw [hdw] at hfind
    have : s.rrRotate junk = .err := by
      by_cases h0 : p.an = []
      · rw [rrRotate, hd, Res.ok_bind, if_pos (by rw [hlan, h0]; rfl)]
      · have hpos := List.length_pos_iff.2 h0
        have : rrFind d = .ok (p.an.length - 1) := by
          rw [rrFind, han, hfind]
          simp only [Res.ok_bind, Nat.zero_add]
          rw [if_neg (by omega)]
        rw [rrRotate, hd, Res.ok_bind, if_neg (by rw [hlan]; omega), this, Res.ok_bind,
          if_pos (by rw [hlan]; omega)]
    have hrot : p.rotated = none := by
      rw [Packed.rotated, hdw]; split_ifs <;> rfl
    rw [hrot]; exact this
  · -- one record to rotate
    rw [hdw] at hfind hsplit
    simp only [] at hfind
    have hl : p.an.length = pre.length + 1 := by rw [hsplit]; simp
    have : s.rrRotate junk = .err := by
      rw [rrRotate, hd, Res.ok_bind, if_neg (by rw [hlan]; omega), rrFind, han, hfind]
      split_ifs
      · rfl
      · simp only [Res.ok_bind, Nat.zero_add]
        rw [if_neg (by omega), Res.ok_bind, if_pos (by rw [offsets_length]; omega)]
    have hrot : p.rotated = none := by
      rw [Packed.rotated, hdw]; split_ifs <;> rfl
    rw [hrot]; exact this
  · rw [hdw] at hfind hsplit
    have hl : p.an.length = pre.length + (post.length + 2) := by rw [hsplit]; simp
    by_cases hres : reserved r.type = true
    · have : s.rrRotate junk = .err := by
        rw [rrRotate, hd, Res.ok_bind, if_neg (by rw [hlan]; omega), rrFind, han, hfind]
        simp [hres]
      have hrot : p.rotated = none := by
        rw [Packed.rotated, hdw]; simp [hres]
      rw [hrot]; exact this
    · have hrr : rrFind d = .ok pre.length := by
        rw [rrFind, han, hfind]
        simp [hres]
      rw [step _ hrr (by omega)]
      -- positions
      have hoff : offsets 0 p.an = offsets 0 pre ++ (sizes pre, sizes pre + r.name.length) ::
          offsets (sizes pre + r.size) (q :: post) := by
        rw [hsplit, offsets_append]; simp [offsets]
      have hg1 : (d.an.getD pre.length (0, 0)).1 = sizes pre := by
        rw [han, hoff, List.getD_eq_getElem?_getD,
          List.getElem?_append_right (by rw [offsets_length]; omega), offsets_length]
        simp
      have hg2 : (d.an.getD (pre.length + 1) (0, 0)).1 = sizes pre + r.size := by
        rw [han, hoff, List.getD_eq_getElem?_getD,
          List.getElem?_append_right (by rw [offsets_length]; omega), offsets_length]
        simp [offsets]
      rw [hg1, hg2]
      have hokpre : ∀ x ∈ pre, x.Ok := fun x hx => hokan x (by rw [hsplit]; simp [hx])
      have rok : r.Ok := hokan r (by rw [hsplit]; simp)
      have hokpost : ∀ x ∈ q :: post, x.Ok := fun x hx => hokan x (by rw [hsplit]; simp at hx ⊢; grind)
      have hszan : sizes p.an = sizes pre + r.size + sizes (q :: post) := by
        rw [hsplit, sizes_append, sizes_cons]; omega
      have hrsz : r.name.length + 10 ≤ r.size := by simp [RR.size]
      have hqsz : 10 ≤ sizes (q :: post) := by
        have := count_le (q :: post); simp at this; omega
      have hcont : s.contents = pre.flatMap RR.enc ++ r.enc ++ (q :: post).flatMap RR.enc ++
          ((p.ns ++ p.ar).flatMap RR.enc ++ (offsets 0 p.all).flatMap Packed.cell ++
          be16 p.an.length ++ be16 p.ns.length ++ be16 p.ar.length ++ [p.kind]) := by
        rw [hc, Packed.enc]
        have e : p.all.flatMap RR.enc = pre.flatMap RR.enc ++ r.enc ++ (q :: post).flatMap RR.enc ++
            (p.ns ++ p.ar).flatMap RR.enc := by
          rw [Packed.all, hsplit]; simp
        rw [e]; simp only [List.append_assoc]
      obtain ⟨s1, r1, u1, m1, c1⟩ := (rotate_exact h junk).1 _ _ _ _ hcont
        (by intro h0; have := congrArg List.length h0; rw [RR.enc_length rok] at this; simp at this; omega)
        (by intro h0; have := congrArg List.length h0; rw [encs_length hokpost] at this; simp at this; omega)
        (by simp)
      rw [encs_length hokpre, RR.enc_length rok, encs_length hokpost, ← hszan] at r1
      rw [r1, Res.ok_bind]
      have hl1 : s1.len = s.len := by
        rw [← u1.clen, ← h.clen, c1, hcont]; simp; omega
      have htbl : ((s1.len : Int) - 7 - (p.an.length + p.ns.length + p.ar.length : Nat) * 4).toNat =
          sizes p.all := by
        have : p.all.length = p.an.length + p.ns.length + p.ar.length := by simp [Packed.all]; omega
        rw [hl1]; omega
      rw [htbl]
      by_cases hrest : p.ns ≠ [] ∨ p.ar ≠ []
      · have hrot : p.rotated = none := by
          rw [Packed.rotated, if_pos hrest]
        rw [hrot]
        show rotateOffsets s1 (sizes p.all) pre.length p.an.length = .err
        rw [rotateOffsets, if_neg (by omega), if_pos]
        have : 0 < p.ns.length + p.ar.length := by
          rcases hrest with h | h
          · have := List.length_pos_iff.2 h; omega
          · have := List.length_pos_iff.2 h; omega
        have : p.all.length = p.an.length + p.ns.length + p.ar.length := by simp [Packed.all]; omega
        rw [hl1]; omega
      · have hrot : p.rotated = some { p with an := pre ++ (q :: post) ++ [r] } := by
          rw [Packed.rotated, if_neg hrest, hdw, hpre]; simp [hres]
        rw [hrot]
        simp only []
        obtain ⟨hn0, ha0⟩ : p.ns = [] ∧ p.ar = [] := by
          constructor
          · by_contra hh; exact hrest (Or.inl hh)
          · by_contra hh; exact hrest (Or.inr hh)
        have hall : p.all = p.an := by simp [Packed.all, hn0, ha0]
        have hb : ∀ c ∈ offsets (sizes pre + r.size) (q :: post),
            c.1 < 65536 ∧ c.2 < 65536 ∧ r.size ≤ c.1 ∧ r.size ≤ c.2 := by
          intro c hcm
          have k1 := offsets_bound _ _ c hcm
          have k2 := offsets_ge _ _ c hcm
          rw [hall] at hsz
          omega
        have hbl : (pre.flatMap RR.enc ++ (q :: post).flatMap RR.enc ++ r.enc).length = sizes p.all := by
          rw [List.length_append, List.length_append, encs_length hokpre, encs_length hokpost,
            RR.enc_length rok, hall]; omega
        generalize hbody : pre.flatMap RR.enc ++ (q :: post).flatMap RR.enc ++ r.enc = body at c1 hbl
        generalize hR : offsets (sizes pre + r.size) (q :: post) = R at hoff hb
        have hRl : R.length = post.length + 1 := by rw [← hR, offsets_length]; rfl
        have hAl : ((offsets 0 pre).flatMap Packed.cell).length = pre.length * 4 := by
          rw [cells_length, offsets_length]
        generalize hA : (offsets 0 pre).flatMap Packed.cell = A at hAl
        generalize hcnts : be16 p.an.length ++ be16 p.ns.length ++ be16 p.ar.length ++ [p.kind] = cnts at *
        have c2 : s1.contents = (body ++ A) ++ Packed.cell (sizes pre, sizes pre + r.name.length) ++
            R.flatMap Packed.cell ++ cnts := by
          rw [c1, hall, hoff, ← hcnts, ← hA, hn0, ha0]; simp
        have hbA : (body ++ A).length = sizes p.all + pre.length * 4 := by
          rw [List.length_append, hbl, hAl]
        have hlen1 : s1.contents.length ≤ 16777215 := by
          rw [u1.clen, hl1, ← h.clen, hc]; exact hp.short
        have f1 : s1.fetchU16 ((sizes p.all + pre.length * 4 : Nat) : Int) = .ok (sizes pre) :=
          fetch_be16 u1 (by rw [hall] at hsz; omega) (pre := body ++ A)
            (post := be16 (sizes pre + r.name.length) ++ R.flatMap Packed.cell ++ cnts)
            (by rw [c2]; simp [Packed.cell]) (by rw [hbA])
        have f2 : s1.fetchU16 ((sizes p.all + 2 + pre.length * 4 : Nat) : Int) =
            .ok (sizes pre + r.name.length) :=
          fetch_be16 u1 (by rw [hall] at hsz; omega) (pre := body ++ A ++ be16 (sizes pre))
            (post := R.flatMap Packed.cell ++ cnts)
            (by rw [c2]; simp [Packed.cell]) (by rw [List.length_append, hbA, be16_length]; omega)
        have f3 : s1.fetchU16 ((sizes p.all + (pre.length + 1) * 4 : Nat) : Int) =
            .ok (sizes pre + r.size) :=
          fetch_be16 u1 (by rw [hall] at hsz; omega)
            (pre := body ++ A ++ Packed.cell (sizes pre, sizes pre + r.name.length))
            (post := be16 (sizes pre + r.size + q.name.length) ++
              (offsets (sizes pre + r.size + q.size) post).flatMap Packed.cell ++ cnts)
            (by rw [c2, ← hR]; simp [Packed.cell, offsets])
            (by rw [List.length_append, hbA]; simp [Packed.cell, be16]; omega)
        obtain ⟨s3, old, l3, u3, m3, o3, c3⟩ := rotateLoop_eq (sizes p.all) r.size R pre.length u1
          (old := Packed.cell (sizes pre, sizes pre + r.name.length)) rfl hbA hb c2 hlen1
        have hl3 : s3.contents.length ≤ 16777215 := by
          have : s3.contents.length = s1.contents.length := by
            rw [c3, c2]
            simp only [List.length_append, cells_length, List.length_map, o3]
            simp [Packed.cell, be16]; omega
          omega
        obtain ⟨s4, s5, p4, p5, u5, m5, c5⟩ := put_cell u3 (a := sizes p.all - r.size)
          (b := sizes p.all - r.size + r.name.length) o3 c3 hl3
        have hpl : (body ++ A ++ (R.map (shiftCell r.size)).flatMap Packed.cell).length =
            sizes p.all + (p.an.length - 1) * 4 := by
          rw [List.length_append, hbA, cells_length, List.length_map, hRl]; omega
        rw [hpl] at p4 p5
        refine ⟨s5, ?_, u5, by rw [m5, m3, m1], ?_, ?_, trivial, trivial, trivial⟩
        · rw [rotateOffsets, if_neg (by omega), if_neg (by
            rw [hl1]; rw [hall] at hcl ⊢; omega), f1, Res.ok_bind, f2, Res.ok_bind, f3, Res.ok_bind]
          have e1 : (((sizes pre + r.size : Nat) : Int) - (sizes pre : Nat)) = (r.size : Nat) := by omega
          have e2 : p.an.length - 1 - pre.length = R.length := by omega
          simp only [e1, e2]
          rw [l3, Res.ok_bind]
          have e3 : u16 ((sizes p.all : Int) - (r.size : Nat)) = sizes p.all - r.size :=
            u16_sub (by rw [hall]; omega) hsz
          have e4 : u16 ((sizes p.all : Int) - (r.size : Nat) +
              (((sizes pre + r.name.length : Nat) : Int) - (sizes pre : Nat))) =
              sizes p.all - r.size + r.name.length := by
            rw [hall] at hsz ⊢
            unfold u16; omega
          rw [e3, e4, orElse_ok _ p4, Res.ok_bind]
          have e5 : ((sizes p.all + 2 + (p.an.length - 1) * 4 : Nat) : Int) =
            (sizes p.all + (p.an.length - 1) * 4 + 2 : Nat) := by omega
          rw [e5, orElse_ok _ p5]
        · rw [c5, Packed.enc]
          have e0 : Packed.all { p with an := pre ++ q :: post ++ [r] } = pre ++ (q :: post) ++ [r] := by
            simp [Packed.all, hn0, ha0]
          have e1 : (pre ++ q :: post ++ [r]).length = p.an.length := by rw [hl]; simp
          have e2 : sizes p.all - r.size = sizes pre + sizes (q :: post) := by rw [hall]; omega
          rw [e0, offsets_append, offsets_append, offsets_shift r.size (q :: post), Nat.zero_add, hR,
            sizes_append, Nat.zero_add, e2]
          simp only [e1]
          rw [← hcnts, ← hA, ← hbody]
          simp [offsets]
        · rw [hsplit]
          simp only [List.append_assoc]
          refine List.Perm.append_left pre ?_
          exact (List.perm_append_comm (l₁ := q :: post) (l₂ := [r]))

end DwStr
end Dw
