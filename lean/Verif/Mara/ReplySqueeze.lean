import Verif.Mara.ReplyModel
import Verif.Mara.CompUnique
import Verif.Spec.Reply
/-!
# Lemmas: taking the last record away from a reply
-/

namespace Mara
namespace Reply

open Spec
open Dw (Res)

theorem put16_be16 (n : Nat) : put16 n = be16 n := rfl

theorem put16_bytes (a b : UInt8) : put16 (a.toNat * 256 + b.toNat) = [a, b] := by
  have ha := a.toNat_lt
  have hb := b.toNat_lt
  unfold put16
  congr 1
  · rw [show (a.toNat * 256 + b.toNat) / 256 = a.toNat by omega]; simp
  · congr 1
    apply UInt8.toNat_inj.1
    rw [UInt8.toNat_ofNat']
    omega

theorem be16_val {n : Nat} (h : n < 65536) : (UInt8.ofNat (n / 256)).toNat * 256 + (UInt8.ofNat n).toNat = n := by
  rw [UInt8.toNat_ofNat', UInt8.toNat_ofNat']
  omega

/-- The flags in the third byte, written again. -/
theorem flags3 (x : UInt8) (c : Bool) :
    ((if (x &&& 128 != 0) = true then (128 : UInt8) else 0) ||| (UInt8.ofNat ((x &&& 120) >>> 3).toNat &&& 15) <<< 3 |||
      (if (x &&& 4 != 0) = true then 4 else 0) ||| (if c then 2 else 0) ||| (if (x &&& 1 != 0) = true then 1 else 0)) =
    (x &&& 253) ||| (if c then 2 else 0) := by
  have h : ∀ c : Bool, ∀ n : Fin 256, (fun x : UInt8 =>
    ((if (x &&& 128 != 0) = true then (128 : UInt8) else 0) ||| (UInt8.ofNat ((x &&& 120) >>> 3).toNat &&& 15) <<< 3 |||
      (if (x &&& 4 != 0) = true then 4 else 0) ||| (if c then 2 else 0) ||| (if (x &&& 1 != 0) = true then 1 else 0)) =
    (x &&& 253) ||| (if c then 2 else 0)) (UInt8.ofNat n) := by decide +kernel
  have := h c ⟨x.toNat, x.toNat_lt⟩
  simpa using this

theorem flags4 (x : UInt8) :
    ((if (x &&& 128 != 0) = true then (128 : UInt8) else 0) ||| (UInt8.ofNat ((x &&& 112) >>> 4).toNat &&& 7) <<< 4 |||
      (UInt8.ofNat (x &&& 15).toNat &&& 15)) = x := by
  have h : ∀ n : Fin 256, (fun x : UInt8 =>
    ((if (x &&& 128 != 0) = true then (128 : UInt8) else 0) ||| (UInt8.ofNat ((x &&& 112) >>> 4).toNat &&& 7) <<< 4 |||
      (UInt8.ofNat (x &&& 15).toNat &&& 15)) = x) (UInt8.ofNat n) := by decide +kernel
  have := h ⟨x.toNat, x.toNat_lt⟩
  simpa using this

theorem keep_notc (x : UInt8) (h : x &&& 2 = 0) : (x &&& 253) ||| 0 = x := by
  have h' : ∀ n : Fin 256, (fun x : UInt8 => x &&& 2 = 0 → (x &&& 253) ||| 0 = x) (UInt8.ofNat n) := by decide +kernel
  have := h' ⟨x.toNat, x.toNat_lt⟩
  simp only [UInt8.ofNat_toNat] at this
  exact this h

theorem keep_tc (x : UInt8) : (x &&& 253) ||| 2 = x ||| 2 := by
  have h' : ∀ n : Fin 256, (fun x : UInt8 => (x &&& 253) ||| 2 = x ||| 2) (UInt8.ofNat n) := by decide +kernel
  have := h' ⟨x.toNat, x.toNat_lt⟩
  simpa using this

/-- What `read_hdr` has read, written with other counts. -/
theorem makeHdr_read (a b x y : UInt8) (c : Bool) (qd an ns ar : Nat) :
    makeHdr { id := a.toNat * 256 + b.toNat, qr := x &&& 128 != 0, opcode := ((x &&& 120) >>> 3).toNat, aa := x &&& 4 != 0,
              tc := c, rd := x &&& 1 != 0, ra := y &&& 128 != 0, z := ((y &&& 112) >>> 4).toNat, rcode := (y &&& 15).toNat,
              qd := qd, an := an, ns := ns, ar := ar } =
    [a, b, (x &&& 253) ||| (if c then 2 else 0), y] ++ be16 qd ++ be16 an ++ be16 ns ++ be16 ar := by
  unfold makeHdr
  simp only
  rw [put16_bytes, flags3, flags4]
  rfl

/-- The header of a reply, as `read_hdr` sees it. -/
theorem readHdr_msg {p : Msg} (hp : p.Sound) {a b x y : UInt8} (hh : p.head = [a, b, x, y]) :
    readHdr p.bytes = some {
      id := a.toNat * 256 + b.toNat, qr := x &&& 128 != 0, opcode := ((x &&& 120) >>> 3).toNat,
      aa := x &&& 4 != 0, tc := x &&& 2 != 0, rd := x &&& 1 != 0, ra := y &&& 128 != 0, z := ((y &&& 112) >>> 4).toNat,
      rcode := (y &&& 15).toNat, qd := 1, an := p.an.length, ns := p.ns.length, ar := p.ar.length } := by
  have h1 := hp.an
  have h2 := hp.ns
  have h3 := hp.ar
  unfold Msg.bytes Msg.header
  rw [hh]
  simp only [be16, List.cons_append, List.nil_append, List.append_assoc, readHdr, be16_val h1, be16_val h2, be16_val h3]
  rfl

/-- A record has its name first, then ten bytes, then its data. -/
theorem skipR_step {pre rest : List UInt8} {r : Rec} (hr : r.Sound) (n : Nat) (hrest : rest ≠ []) :
    skipR (pre ++ (r.toRR.enc ++ rest)) (n + 1) pre.length = skipR (pre ++ (r.toRR.enc ++ rest)) n (pre ++ r.toRR.enc).length := by
  have hname := hr.name
  have he : pre ++ (r.toRR.enc ++ rest) = pre ++ (encName r.name ++ (be16 r.type ++ r.cls ++ be32 r.ttl ++ be16 r.rdata.length ++ r.rdata ++ rest)) := by
    unfold RR.enc Rec.toRR; simp
  have hd : Lookup.dlabel (pre ++ (r.toRR.enc ++ rest)) pre.length 256 0 = some (encName r.name).length := by
    rw [he]
    have := Lookup.dlabel_name hname.1 pre (be16 r.type ++ r.cls ++ be32 r.ttl ++ be16 r.rdata.length ++ r.rdata ++ rest) pre.length 256 0
      (by omega) (by have := Lookup.Fits.labels hname.1; have := hname.2; omega) (by have := hname.2; omega)
    rw [this]; simp
  have hcl := hr.ok.cls
  have hsz := hr.ok.size
  have hlen : r.toRR.enc.length = (encName r.name).length + 10 + r.rdata.length := by
    unfold RR.enc Rec.toRR; simp [be16, be32, hcl] <;> omega
  have hpos : 0 < rest.length := List.length_pos_iff.2 hrest
  have hsplit : pre ++ (r.toRR.enc ++ rest) = (pre ++ encName r.name ++ be16 r.type ++ r.cls ++ be32 r.ttl) ++
      (UInt8.ofNat (r.rdata.length / 256) :: UInt8.ofNat r.rdata.length :: (r.rdata ++ rest)) := by
    rw [he]; simp [be16]
  have hol : (pre ++ encName r.name ++ be16 r.type ++ r.cls ++ be32 r.ttl).length = pre.length + ((encName r.name).length + 8) := by
    simp [be16, be32, hcl] <;> omega
  have g1 : (pre ++ (r.toRR.enc ++ rest)).getD (pre.length + ((encName r.name).length + 8)) 0 = UInt8.ofNat (r.rdata.length / 256) := by
    rw [hsplit, List.getD_eq_getElem?_getD, ← hol, List.getElem?_append_right (by omega)]; simp
  have g2 : (pre ++ (r.toRR.enc ++ rest)).getD (pre.length + ((encName r.name).length + 8) + 1) 0 = UInt8.ofNat r.rdata.length := by
    rw [hsplit, List.getD_eq_getElem?_getD, ← hol, List.getElem?_append_right (by omega)]; simp
  conv => lhs; unfold skipR
  rw [hd]
  simp only
  rw [g1, g2, be16_val hsz, if_neg (by simp only [List.length_append, hlen]; omega),
    if_neg (by simp only [List.length_append, hlen]; omega)]
  congr 1
  simp only [List.length_append, hlen]
  omega

theorem skipR_recs {u : List UInt8} : ∀ (rs : List Rec) (pre : List UInt8) (r : Rec), (∀ x ∈ rs, x.Sound) →
    u = pre ++ ((rs.map Rec.toRR).flatMap RR.enc ++ r.toRR.enc) →
    skipR u rs.length pre.length = some (pre ++ (rs.map Rec.toRR).flatMap RR.enc).length
  | [], pre, r, _, _ => by simp [skipR]
  | x :: rs, pre, r, hs, hu => by
    have hne : ((rs.map Rec.toRR).flatMap RR.enc ++ r.toRR.enc) ≠ [] := by
      simp [RR.enc, be16]
    have hu' : u = pre ++ (x.toRR.enc ++ ((rs.map Rec.toRR).flatMap RR.enc ++ r.toRR.enc)) := by
      rw [hu]; simp
    rw [List.length_cons, hu', skipR_step (hs x (by simp)) _ hne, ← hu',
      skipR_recs rs (pre ++ x.toRR.enc) r (fun y hy => hs y (by simp [hy])) (by rw [hu']; simp)]
    simp

end Reply
end Mara
