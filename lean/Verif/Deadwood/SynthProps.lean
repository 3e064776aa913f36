import Verif.Deadwood.SynthModel
import Verif.Deadwood.DnsStrProps
import Verif.Spec.Ip6
import Verif.Spec.Packed
/-!
# C39: addresses written in the configuration
-/

namespace Dw
namespace Synth
open DwStr Acl Spec

/-- The answer holding one record of class IN for `name`. -/
def oneRecord (name : List UInt8) (type : Nat) (ttl : Int) (rdata : List UInt8) : Packed :=
  { an := [{ name := name, type := type, cls := [0, 1], ttl := (max 0 (min ttl 65535)).toNat,
             rdlen := be16 rdata.length, rdata := rdata }]
    ns := [], ar := [], kind := 0 }

theorem makeSynthRecord_exact {name rec : DwStr} (hn : Usable name) (hr : Usable rec) (type : Nat) (ttl : Int)
    (junk : List UInt8) (hlen : name.contents.length + rec.contents.length + 35 < 134217728) :
    ∃ out, makeSynthRecord name rec type ttl junk = .ok out ∧ Usable out ∧
      out.contents = (oneRecord name.contents type ttl rec.contents).enc := by
  have e1 := hn.clen
  have e2 := hr.clen
  rw [e1, e2] at hlen
  obtain ⟨o0, h0, u0, c0, m0⟩ := create_usable (name.len + rec.len + 35) junk (by omega) hlen
  obtain ⟨o1, h1, u1, m1, c1⟩ := (append_exact hn u0).2 (by rw [c0, e1]; simp; omega)
  rw [c0, List.nil_append] at c1
  obtain ⟨o2, h2, u2, m2, c2⟩ := (pushU16_exact type u1).2 (by rw [c1, e1]; omega)
  rw [c1] at c2
  obtain ⟨o3, h3, u3, m3, c3⟩ := (pushU16_exact 1 u2).2 (by rw [c2]; simp [e1]; omega)
  rw [c2] at c3
  obtain ⟨o4, h4, u4, m4, c4⟩ := (pushU16_exact 0 u3).2 (by rw [c3]; simp [e1]; omega)
  rw [c3] at c4
  obtain ⟨o5, h5, u5, m5, c5⟩ := (pushU16_exact (if ttl < 0 then (0 : Int) else if ttl > 65535 then 65535 else ttl).toNat u4).2
    (by rw [c4]; simp [e1]; omega)
  rw [c4] at c5
  obtain ⟨o6, h6, u6, m6, c6⟩ := (pushU16_exact rec.len u5).2 (by rw [c5]; simp [e1]; omega)
  rw [c5] at c6
  obtain ⟨o7, h7, u7, m7, c7⟩ := (append_exact hr u6).2 (by rw [c6]; simp [e1, e2]; omega)
  rw [c6] at c7
  obtain ⟨o8, h8, u8, m8, c8⟩ := (pushU16_exact 0 u7).2 (by rw [c7]; simp [e1, e2]; omega)
  rw [c7] at c8
  obtain ⟨o9, h9, u9, m9, c9⟩ := (pushU16_exact name.len u8).2 (by rw [c8]; simp [e1, e2]; omega)
  rw [c8] at c9
  obtain ⟨oa, ha, ua, ma, ca⟩ := (pushU16_exact 1 u9).2 (by rw [c9]; simp [e1, e2]; omega)
  rw [c9] at ca
  obtain ⟨ob, hb, ub, mb, cb⟩ := (pushU16_exact 0 ua).2 (by rw [ca]; simp [e1, e2]; omega)
  rw [ca] at cb
  obtain ⟨oc, hc, uc, mc, cc⟩ := (pushU16_exact 0 ub).2 (by rw [cb]; simp [e1, e2]; omega)
  rw [cb] at cc
  obtain ⟨od, hd, ud, md, cd⟩ := (addchar_exact 0 uc).2 (by rw [cc]; simp [e1, e2]; omega)
  rw [cc] at cd
  refine ⟨od, ?_, ud, ?_⟩
  · simp only [makeSynthRecord, h0, h1, h2, h3, h4, h5, h6, h7, h8, pushIgn, h9, ha, hb, hc, hd, Res.ok_bind]
  · have ht : (if ttl < 0 then (0 : Int) else if ttl > 65535 then 65535 else ttl).toNat = (max 0 (min ttl 65535)).toNat := by
      split
      · omega
      · split <;> omega
    have hts : (max 0 (min ttl 65535)).toNat < 65536 := by omega
    have hbe : be32 (max 0 (min ttl 65535)).toNat = [0, 0] ++ be16 (max 0 (min ttl 65535)).toNat := by
      unfold be32
      rw [Nat.div_eq_of_lt hts, Nat.mod_eq_of_lt hts]
      rfl
    rw [cd, ht]
    simp only [oneRecord, Packed.enc, Packed.all, List.append_nil, List.flatMap_cons, List.flatMap_nil, RR.enc, hbe,
      offsets, Packed.cell, e1, e2]
    simp [be16]

/-! ## The digits -/

/-- The digits of a text, if all its characters are digits or separators. -/
def digs : List UInt8 → Option (List Nat)
  | [] => some []
  | c :: r =>
    if isSep c then digs r
    else match hexVal c, digs r with
      | some v, some vs => some (v :: vs)
      | _, _ => none

theorem digs_iff {t : List UInt8} : ∀ {ds : List Nat},
    digs t = some ds ↔ (t.filter (fun c => !isSep c)).map hexVal = ds.map some := by
  induction t with
  | nil => intro ds; cases ds <;> simp [digs]
  | cons c r ih =>
    intro ds
    unfold digs
    by_cases hs : isSep c = true
    · rw [if_pos hs, ih]; simp [hs]
    · rw [if_neg hs]
      simp only [Bool.not_eq_true] at hs
      rw [List.filter_cons_of_pos (by simp [hs]), List.map_cons]
      cases hv : hexVal c with
      | none => cases ds <;> simp
      | some v =>
        cases hd : digs r with
        | none =>
          simp only [reduceCtorEq, false_iff]
          cases ds with
          | nil => simp
          | cons d ds =>
            simp only [List.map_cons, List.cons.injEq, not_and]
            intro _ h
            rw [← ih, hd] at h
            cases h
        | some vs =>
          cases ds with
          | nil => simp
          | cons d ds =>
            simp only [Option.some.injEq, List.cons.injEq, List.map_cons, ← ih, hd]

theorem hexVal_lt {c : UInt8} {v : Nat} (h : hexVal c = some v) : v < 16 := by
  have : ∀ x : Fin 256, (hexVal (UInt8.ofNat x)).all (fun v => decide (v < 16)) = true := by decide +kernel
  have := this ⟨c.toNat, c.toNat_lt⟩
  simp only [UInt8.ofNat_toNat, h, Option.all_some, decide_eq_true_eq] at this
  exact this

theorem ip6Char_eq (c : UInt8) : ip6Char c = if isSep c then some none else (hexVal c).map some := by
  revert c
  have : ∀ x : Fin 256, ip6Char (UInt8.ofNat x) =
      if isSep (UInt8.ofNat x) then some none else (hexVal (UInt8.ofNat x)).map some := by decide +kernel
  intro c
  have := this ⟨c.toNat, c.toNat_lt⟩
  simpa using this

/-- The bytes made from digits; an odd last digit is the high half of its byte. -/
def pack : List Nat → List UInt8
  | a :: b :: r => UInt8.ofNat (a * 16 + b) :: pack r
  | [a] => [UInt8.ofNat (a * 16)]
  | [] => []

theorem pack_length : ∀ ds : List Nat, (pack ds).length = (ds.length + 1) / 2
  | a :: b :: r => by simp only [pack, List.length_cons, pack_length r]; omega
  | [a] => by simp [pack]
  | [] => rfl

theorem pack_pairUp : ∀ ds : List Nat, ds.length % 2 = 0 → pack ds = pairUp ds
  | a :: b :: r, h => by simp only [pack, pairUp]; rw [pack_pairUp r (by simp at h; omega)]
  | [a], h => by simp at h
  | [], _ => rfl

theorem pack_even : ∀ (ds : List Nat) (d : Nat), ds.length % 2 = 0 → pack (ds ++ [d]) = pack ds ++ [UInt8.ofNat (d * 16)]
  | a :: b :: r, d, h => by
    simp only [List.cons_append, pack]; rw [pack_even r d (by simp at h; omega)]
  | [a], _, h => by simp at h
  | [], _, _ => rfl

theorem pack_odd : ∀ (ds : List Nat) (d : Nat), ds.length % 2 = 1 → (∀ x ∈ ds, x < 16) → d < 16 →
    ∃ p x, pack ds = p ++ [x] ∧ p.length = ds.length / 2 ∧ pack (ds ++ [d]) = p ++ [x ||| UInt8.ofNat d]
  | a :: b :: r, d, h, hx, hd => by
    obtain ⟨p, x, h1, h2, h3⟩ := pack_odd r d (by simp at h; omega) (fun y hy => hx y (by simp [hy])) hd
    refine ⟨UInt8.ofNat (a * 16 + b) :: p, x, ?_, ?_, ?_⟩
    · simp [pack, h1]
    · simp [h2]; omega
    · simp [pack, h3]
  | [a], d, _, hx, hd => by
    refine ⟨[], UInt8.ofNat (a * 16), rfl, by simp, ?_⟩
    have ha := hx a (by simp)
    have : ∀ (a d : Fin 16), UInt8.ofNat (a.val * 16 + d.val) = UInt8.ofNat (a.val * 16) ||| UInt8.ofNat d.val := by
      decide +kernel
    simpa [pack] using this ⟨a, ha⟩ ⟨d, hd⟩
  | [], _, h, _, _ => by simp at h

theorem rd_at {pre post : List UInt8} {x : UInt8} {i : Nat} (hi : i = pre.length) : rd (pre ++ x :: post) i = .ok x := by
  subst hi; simp [rd]

theorem wr_set {pre post : List UInt8} {x b : UInt8} {i : Nat} (hi : i = pre.length) :
    wr (pre ++ x :: post) i b = .ok (pre ++ b :: post) := by
  subst hi; simp [wr]

/-- The loop reads exactly the digits, and fails on anything else and on more than 32
digits. -/
theorem ip6Loop_exact : ∀ (text : List UInt8) (ds : List Nat) (rest : List UInt8), (∀ x ∈ ds, x < 16) → ds.length ≤ 32 →
    (pack ds).length + rest.length = 20 →
    match digs text with
    | none => ip6Loop text (pack ds ++ rest) ds.length = .err
    | some es =>
      if ds.length + es.length ≤ 32 then
        ∃ rest', ip6Loop text (pack ds ++ rest) ds.length = .ok (pack (ds ++ es) ++ rest', ds.length + es.length) ∧
          (pack (ds ++ es)).length + rest'.length = 20
      else ip6Loop text (pack ds ++ rest) ds.length = .err := by
  intro text
  induction text with
  | nil =>
    intro ds rest _ hl hr
    simp only [digs]
    rw [if_pos (by simpa using hl)]
    exact ⟨rest, by simp [ip6Loop], by simpa using hr⟩
  | cons c text ih =>
    intro ds rest hx hl hr
    unfold digs ip6Loop
    rw [ip6Char_eq]
    by_cases hs : isSep c = true
    · rw [if_pos hs, if_pos hs]
      exact ih ds rest hx hl hr
    · rw [if_neg hs, if_neg hs]
      cases hv : hexVal c with
      | none => rfl
      | some v =>
        have hv16 := hexVal_lt hv
        simp only [Option.map_some]
        -- one step of the loop
        have hpl := pack_length ds
        have step : (ds.length < 32 → ∃ rest', (pack (ds ++ [v])).length + rest'.length = 20 ∧
              (do
                let ip ← (if ds.length % 2 = 0 then wr (pack ds ++ rest) (ds.length / 2) 0 else .ok (pack ds ++ rest))
                if ds.length < 32 then do
                  let x ← rd ip (ds.length / 2)
                  let ip ← wr ip (ds.length / 2) (x ||| UInt8.ofNat (if ds.length % 2 = 0 then v * 16 else v))
                  ip6Loop text ip (ds.length + 1)
                else .err : Res (List UInt8 × Nat)) = ip6Loop text (pack (ds ++ [v]) ++ rest') (ds.length + 1)) ∧
            (¬ ds.length < 32 → (do
                let ip ← (if ds.length % 2 = 0 then wr (pack ds ++ rest) (ds.length / 2) 0 else .ok (pack ds ++ rest))
                if ds.length < 32 then do
                  let x ← rd ip (ds.length / 2)
                  let ip ← wr ip (ds.length / 2) (x ||| UInt8.ofNat (if ds.length % 2 = 0 then v * 16 else v))
                  ip6Loop text ip (ds.length + 1)
                else .err : Res (List UInt8 × Nat)) = .err) := by
          constructor
          · intro hlt
            by_cases he : ds.length % 2 = 0
            · match rest, hr with
              | [], hr => simp at hr; omega
              | y :: rest, hr =>
                refine ⟨rest, ?_, ?_⟩
                · rw [pack_even ds v he]; simp at hr ⊢; omega
                · rw [if_pos he, if_pos he, wr_set (by omega), Res.ok_bind, if_pos hlt, rd_at (by omega), Res.ok_bind,
                    wr_set (by omega), Res.ok_bind, pack_even ds v he]
                  simp
            · obtain ⟨p, x, h1, h2, h3⟩ := pack_odd ds v (by omega) hx hv16
              refine ⟨rest, ?_, ?_⟩
              · rw [h3]; rw [h1] at hr; simpa using hr
              · rw [if_neg he, if_neg he, Res.ok_bind, if_pos hlt, h1, List.append_assoc, List.singleton_append,
                  rd_at h2.symm, Res.ok_bind, wr_set h2.symm, Res.ok_bind, h3]
                simp
          · intro hlt
            have he : ds.length % 2 = 0 := by omega
            match rest, hr with
            | [], hr => simp at hr; omega
            | y :: rest, hr =>
              rw [if_pos he, wr_set (by omega), Res.ok_bind, if_neg hlt]
        by_cases hlt : ds.length < 32
        · obtain ⟨rest', h1, h2⟩ := step.1 hlt
          simp only [h2]
          have := ih (ds ++ [v]) rest' (by
            intro x hx'
            rcases List.mem_append.1 hx' with h | h
            · exact hx x h
            · simp at h; omega) (by simp; omega) h1
          rw [List.length_append, List.length_singleton] at this
          cases hd : digs text with
          | none => rw [hd] at this; exact this
          | some es =>
            rw [hd] at this
            simp only [List.length_cons] at this ⊢
            rw [show ds.length + (es.length + 1) = ds.length + 1 + es.length by omega]
            rw [List.append_assoc, List.singleton_append] at this
            exact this
        · simp only [step.2 hlt]
          cases digs text with
          | none => trivial
          | some es => simp only [List.length_cons]; rw [if_neg (by omega)]; trivial

/-- **C39.** An `ip6` text is accepted exactly when it is 32 to 64 characters long and
writes an address; the record made is one AAAA record with exactly these 16 bytes. -/
theorem makeSynthIp6_exact {name text : DwStr} (hn : Usable name) (ht : Usable text) (ttl : Int)
    (junk junk2 : List UInt8) (hlen : name.contents.length + 51 < 134217728) :
    (∀ addr, Ip6Text text.contents addr →
      addr.length = 16 ∧ ∃ out, makeSynthIp6 name text ttl junk junk2 = .ok out ∧ Usable out ∧
        out.contents = (oneRecord name.contents 28 ttl addr).enc) ∧
    ((¬ ∃ addr, Ip6Text text.contents addr) → makeSynthIp6 name text ttl junk junk2 = .err) := by
  obtain ⟨ip, h0, u0, c0, m0⟩ := create_usable 18 junk (by omega) (by omega)
  have hb : ip.buf.length = 20 := by rw [u0.wf, m0]
  have hloop := ip6Loop_exact text.contents [] ip.buf (by simp) (by simp) (by simp [pack, hb])
  simp only [pack, List.nil_append, List.length_nil, Nat.zero_add] at hloop
  unfold makeSynthIp6
  rw [h0, Res.ok_bind, ← ht.clen]
  constructor
  · rintro addr ⟨h1, h2, ds, h3, h4, rfl⟩
    rw [digs_iff.2 h3] at hloop
    simp only at hloop
    rw [if_pos (by omega)] at hloop
    obtain ⟨rest, hl1, hl2⟩ := hloop
    have hpl : (pack ds).length = 16 := by rw [pack_length, h4]
    rw [pack_pairUp ds (by omega)] at hl1 hl2 hpl
    refine ⟨hpl, ?_⟩
    rw [if_neg (by omega), hl1, Res.ok_bind]
    simp only []
    rw [if_neg (by omega)]
    have hru : Usable { ip with len := 16, buf := pairUp ds ++ rest } :=
      ⟨by simp only [WF, m0, List.length_append]; omega, by simp [m0], by simp [m0]⟩
    have hrc : ({ ip with len := 16, buf := pairUp ds ++ rest } : DwStr).contents = pairUp ds := by
      simp only [contents]; rw [List.take_left' hpl]
    have := makeSynthRecord_exact hn hru 28 ttl junk2 (by rw [hrc, hpl]; omega)
    rwa [hrc] at this
  · intro hno
    by_cases hl : text.contents.length < 32 ∨ text.contents.length > 64
    · rw [if_pos hl]
    · rw [if_neg hl]
      cases hd : digs text.contents with
      | none => rw [hd] at hloop; simp only at hloop; rw [hloop]; rfl
      | some es =>
        rw [hd] at hloop
        simp only at hloop
        split at hloop
        · obtain ⟨rest, hl1, hl2⟩ := hloop
          rw [hl1, Res.ok_bind]
          simp only []
          rw [if_pos]
          intro h32
          exact hno ⟨pairUp es, by omega, by omega, es, digs_iff.1 hd, h32, rfl⟩
        · rw [hloop]; rfl

/-- `2001-0db8-0000-0000-0000-0000-0000-000_` -/
def ex6 : List UInt8 :=
  [50, 48, 48, 49, 45, 48, 100, 98, 56, 45, 48, 48, 48, 48, 45, 48, 48, 48, 48, 45, 48, 48, 48, 48, 45, 48, 48, 48, 48,
   45, 48, 48, 48, 48, 45, 48, 48, 48, 95]

example : Ip6Text ex6 [0x20, 1, 0x0d, 0xb8, 0, 0, 0, 0, 0, 0, 0, 0, 0, 0, 0, 0] :=
  ⟨by decide, by decide, (digs ex6).getD [], digs_iff.1 (by decide +kernel), by decide +kernel, by decide +kernel⟩

/-- C39, IPv4: the record made is one A record with exactly the four bytes read. -/
theorem makeSynthIp4_exact {t : AddrText} (hok : t.Ok) {name : DwStr} (hn : Usable name) (text : List UInt8) (ttl : Int)
    (junk junk2 : List UInt8) (hlen : name.contents.length + 39 < 134217728) :
    (∀ a, t.v4 (cstr text) = some a → ∃ out, makeSynthIp4 t name text ttl junk junk2 = .ok out ∧ Usable out ∧
      out.contents = (oneRecord name.contents 1 ttl a).enc) ∧
    (t.v4 (cstr text) = none → makeSynthIp4 t name text ttl junk junk2 = .err) := by
  obtain ⟨ip, h0, u0, c0, m0⟩ := create_usable 18 junk (by omega) (by omega)
  have hb : ip.buf.length = 20 := by rw [u0.wf, m0]
  unfold makeSynthIp4
  rw [h0, Res.ok_bind]
  constructor
  · intro a ha
    have hal := hok.v4 ha
    simp only [ha]
    rw [if_pos (by omega)]
    have hru : Usable { ip with len := 4, buf := a ++ ip.buf.drop a.length } :=
      ⟨by simp only [WF, m0, List.length_append, List.length_drop]; omega, by simp [m0], by simp [m0]⟩
    have hrc : ({ ip with len := 4, buf := a ++ ip.buf.drop a.length } : DwStr).contents = a := by
      simp only [contents]; rw [List.take_left' hal]
    have := makeSynthRecord_exact hn hru 1 ttl junk2 (by rw [hrc, hal]; omega)
    rwa [hrc] at this
  · intro h; simp only [h]

end Synth
end Dw
