import Verif.Spec.Glue
import Verif.Deadwood.TrustModel
import Verif.Deadwood.RemoteLemmas
import Verif.Deadwood.StrProps
import Verif.Deadwood.Name2Props
import Verif.Deadwood.DecompPacket
/-!
# Lemmas: the address of a server out of a cached answer
-/

namespace Dw
namespace Trust
open DwStr Spec

theorem popU16_buf {s s' : DwStr} {n : Nat} (h : popU16 s = .ok (n, s')) : s'.buf = s.buf := by
  unfold popU16 at h
  split at h
  · cases h
  split at h
  · cases h
  cases h1 : s.peek (s.len - 2) with
  | ok a =>
    cases h2 : s.peek (s.len - 2 + 1) with
    | ok b => rw [h1, h2] at h; cases h; rfl
    | err => rw [h1, h2] at h; cases h
    | ub => rw [h1, h2] at h; cases h
  | err => rw [h1] at h; cases h
  | ub => rw [h1] at h; cases h

theorem pop_be16 {s : DwStr} (h : Usable s) {pre : List UInt8} {n : Nat} (hn : n < 65536) (hc : s.contents = pre ++ be16 n) :
    ∃ s', popU16 s = .ok (n, s') ∧ Usable s' ∧ s'.buf = s.buf ∧ s'.contents = pre := by
  obtain ⟨s', e, hu, _, hc'⟩ := (popU16_exact h).2 pre _ _ hc
  refine ⟨s', ?_, hu, popU16_buf e, hc'⟩
  rw [e]
  have : (UInt8.ofNat (n / 256)).toNat * 256 + (UInt8.ofNat n).toNat = n := by simp; omega
  rw [this]

theorem fetch_be16 {s : DwStr} (h : Usable s) {pre post : List UInt8} {n : Nat} (hn : n < 65536)
    (hc : s.contents = pre ++ be16 n ++ post) : s.fetchU16 pre.length = .ok n := by
  apply fetchU16_at h _ hn
  intro j hj
  rw [mem, memOf, hc, List.append_assoc, List.getElem?_append_right (by omega), Nat.add_sub_cancel_left,
    List.getElem?_append_left hj, List.getElem?_eq_getElem hj]

/-- A record lies where the table says. -/
def Sits (R : List UInt8) (x : (Nat × Nat) × RR) : Prop :=
  ∃ pre post, R = pre ++ x.2.enc ++ post ∧ x.1 = (pre.length, pre.length + x.2.name.length) ∧ pre.length + x.2.name.length < 65536 ∧ x.2.Ok

theorem RR.enc_length {r : RR} (h : r.Ok) : r.enc.length = r.size := by
  simp [RR.enc, RR.size, be32, be16, h.cls, h.rdlen]; omega

theorem sits_offsets {S : List UInt8} (rs : List RR) (pre post : List UInt8) (hS : S = pre ++ rs.flatMap RR.enc ++ post)
    (hok : ∀ r ∈ rs, r.Ok) (hsz : pre.length + sizes rs < 65536) :
    ∀ x ∈ (offsets pre.length rs).zip rs, Sits S x := by
  induction rs generalizing pre with
  | nil => simp [offsets]
  | cons r rs ih =>
    have hr := hok r (by simp)
    have hlen := RR.enc_length hr
    simp only [sizes, List.map_cons, List.sum_cons] at hsz
    intro x hx
    rw [offsets, List.zip_cons_cons, List.mem_cons] at hx
    rcases hx with rfl | hx
    · refine ⟨pre, rs.flatMap RR.enc ++ post, by rw [hS]; simp, rfl, ?_, hr⟩
      simp only [RR.size] at hsz; dsimp only; omega
    · have := ih (pre ++ r.enc) (by rw [hS]; simp) (fun q hq => hok q (by simp [hq])) (by rw [List.length_append, hlen]; simp only [sizes]; omega)
      rw [List.length_append, hlen] at this
      exact this x hx

theorem Sits.type {R post : List UInt8} {x : (Nat × Nat) × RR} (hx : Sits R x) {a : DwStr} (h : Usable a) (hc : a.contents = R ++ post) :
    a.fetchU16 x.1.2 = .ok x.2.type := by
  obtain ⟨pre, post', e1, e2, -, e4⟩ := hx
  have := fetch_be16 (s := a) h (pre := pre ++ x.2.name) (n := x.2.type)
    (post := x.2.cls ++ be32 x.2.ttl ++ x.2.rdlen ++ x.2.rdata ++ post' ++ post) e4.type (by rw [hc, e1]; simp [RR.enc])
  rw [e2]
  simpa using this

/-- The loop: the lines of the table are taken from the last one on. -/
theorem addrLoop_eq (R : List UInt8) : ∀ (n : Nat) (L : List ((Nat × Nat) × RR)) (a : DwStr) (st : List Nat), Usable a →
    (∀ x ∈ L, Sits R x) → a.contents = R ++ (L.map Prod.fst).flatMap Packed.cell → n ≤ L.length →
    ∃ a' post, addrLoop n a st = .ok (some (a', st ++ ((L.reverse.take n).filter fun x => x.2.address).map fun x => x.1.2)) ∧
      Usable a' ∧ a'.buf = a.buf ∧ a'.contents = R ++ post
  | 0, L, a, st, h, _, hc, _ => ⟨a, _, by simp [addrLoop], h, rfl, hc⟩
  | n + 1, L, a, st, h, hL, hc, hn => by
    obtain ⟨M, x, rfl⟩ : ∃ M x, L = M ++ [x] := ⟨L.dropLast, L.getLast (by rintro rfl; simp at hn), (List.dropLast_concat_getLast _).symm⟩
    have hx := hL x (by simp)
    obtain ⟨pre, post, -, e2, e3, e4⟩ := id hx
    have l1 : x.1.1 < 65536 := by rw [e2]; dsimp only; omega
    have l2 : x.1.2 < 65536 := by rw [e2]; exact e3
    obtain ⟨a1, p1, u1, b1, c1⟩ := pop_be16 h l2 (pre := R ++ (M.map Prod.fst).flatMap Packed.cell ++ be16 x.1.1)
      (by rw [hc]; simp [Packed.cell])
    obtain ⟨a2, p2, u2, b2, c2⟩ := pop_be16 u1 l1 c1
    have ht := hx.type u2 c2
    obtain ⟨a', post', r1, r2, r3, r4⟩ := addrLoop_eq R n M a2 (if x.2.type = 1 ∨ x.2.type = 28 then st ++ [x.1.2] else st) u2
      (fun y hy => hL y (by simp [hy])) c2 (by simp at hn; omega)
    refine ⟨a', post', ?_, r2, by rw [r3, b2, b1], r4⟩
    unfold addrLoop
    simp only [p1, p2, ht, r1]
    by_cases hA : x.2.type = 1 ∨ x.2.type = 28
    · have : x.2.address = true := by simpa [RR.address] using hA
      simp [hA, this]
    · have : x.2.address = false := by simpa [RR.address, not_or] using hA
      simp [hA, this]

end Trust
end Dw
