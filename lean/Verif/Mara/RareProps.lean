import Verif.Mara.RareNsap
import Verif.Spec.Packed

/-!
# Properties: the data of LOC and NSAP records
-/

namespace Mara
namespace Csv2

open Dw (Res)
open Spec.ZoneText Spec.Rare

theorem u32_be (n : Nat) (h : n < 4294967296) : Zf.u32 n = Spec.be32 n := by
  simp only [Zf.u32, Spec.be32, Spec.be16, List.cons_append, List.nil_append, List.cons.injEq, and_true]
  refine ⟨?_, ?_, ?_, ?_⟩ <;> (try trivial) <;> refine UInt8.toNat_inj.mp ?_ <;> rw [UInt8.toNat_ofNat', UInt8.toNat_ofNat'] <;> omega

theorem val_lt {pos neg : List UInt8} {a : Angle} (ha : a.Ok pos neg) : a.val pos < 4294967296 := by
  have := ha.small
  rw [Angle.val]; split <;> omega

/-- **A LOC record means what it says.**  Whatever latitude, longitude and altitude are written,
with whatever gaps and comments in them and with up to three sizes, the data of the record are a
version of zero, three bytes that say the size and the precisions as closely as a digit and a
power of ten can (1 m, 10 000 m and 10 m if they are left out), and the three numbers as RFC 1876
has them. -/
theorem loc_exact {s : Stream} (h : Plain s) (hm : s.mode ≠ 103) (g : Gap) (hg : g.Ok) (l : Loc) (hl : l.Ok)
    (e : UInt8) (he : e = 10 ∨ e = 13) (r : List UInt8) :
    ∃ a b c : Nat, getLoc (s.here (last g.first) (pieces g.rest ++ (l.text ++ e :: r))) =
        .ok (some ([0, UInt8.ofNat a, UInt8.ofNat b, UInt8.ofNat c] ++ Spec.be32 (l.lat.val [78, 110]) ++
          Spec.be32 (l.lon.val [69, 101]) ++ Spec.be32 l.height), s.here e r) ∧
      a < 256 ∧ b < 256 ∧ c < 256 ∧
      Tells a (l.metres 0 1) ∧ Tells b (l.metres 1 10000) ∧ Tells c (l.metres 2 10) := by
  have hre : Rd e := by rcases he with rfl | rfl <;> unfold Rd <;> decide
  have et : l.text ++ e :: r = l.lat.text ++ last l.g1.first :: (pieces l.g1.rest ++ (l.lon.text ++ last l.g2.first ::
      (pieces l.g2.rest ++ ((if l.below then [45] else []) ++ (l.alt.text ++ 109 :: (l.sizes.flatMap Size.text ++ e :: r)))))) := by
    have : l.text ++ e :: r = l.lat.text ++ (l.g1.text ++ (l.lon.text ++ (l.g2.text ++ ((if l.below then [45] else []) ++
        (l.alt.text ++ 109 :: (l.sizes.flatMap Size.text ++ e :: r)))))) := by simp [Loc.text]
    rw [this, gap_cons hl.g1, gap_cons hl.g2]
  have hL1 : ∀ c : UInt8, c ∈ [(78 : UInt8), 110] ∨ c ∈ [(83 : UInt8), 115] →
      isAlphanum c.toNat = true ∧ c.toNat < 128 ∧ isNumber c.toNat = false := by
    intro c hc
    simp only [List.mem_cons, List.not_mem_nil, or_false] at hc
    rcases hc with (rfl | rfl) | (rfl | rfl) <;> decide
  have hL2 : ∀ c : UInt8, c ∈ [(69 : UInt8), 101] ∨ c ∈ [(87 : UInt8), 119] →
      isAlphanum c.toNat = true ∧ c.toNat < 128 ∧ isNumber c.toNat = false := by
    intro c hc
    simp only [List.mem_cons, List.not_mem_nil, or_false] at hc
    rcases hc with (rfl | rfl) | (rfl | rfl) <;> decide
  have r1 := lonLat_run h [78, 110] [83, 115] hL1 g hg l.lat hl.lat (last l.g1.first) (stop_gap hl.g1).rd
    (pieces l.g1.rest ++ (l.lon.text ++ last l.g2.first ::
      (pieces l.g2.rest ++ ((if l.below then [45] else []) ++ (l.alt.text ++ 109 :: (l.sizes.flatMap Size.text ++ e :: r))))))
  have r2 := lonLat_run h [69, 101] [87, 119] hL2 l.g1 hl.g1.1 l.lon hl.lon (last l.g2.first) (stop_gap hl.g2).rd
    (pieces l.g2.rest ++ ((if l.below then [45] else []) ++ (l.alt.text ++ 109 :: (l.sizes.flatMap Size.text ++ e :: r))))
  have sk : Skips isSigned := by unfold Skips; decide
  have stopm : Stop 109 := by constructor <;> first | decide | (unfold Rd; decide)
  -- the altitude
  have r3 : ∃ A : Int, (A + 10000000 = (l.height : Nat) ∧ -2147483648 ≤ A) ∧ ∀ (k : Int → P (List UInt8)),
      (get1st isSigned 0 >>= fun _ => getInt 2 >>= k) (s.here (last l.g2.first)
      (pieces l.g2.rest ++ ((if l.below then [45] else []) ++ (l.alt.text ++ 109 :: (l.sizes.flatMap Size.text ++ e :: r))))) =
      k A (s.here 109 (l.sizes.flatMap Size.text ++ e :: r)) := by
    have hsm := hl.alt.small
    cases hb : l.below with
    | true =>
      have hlow := hl.low hb
      refine ⟨-(l.alt.scaled 2 : Nat), ⟨by rw [Loc.height, hb]; simp only [if_true]; omega, by omega⟩, fun k => ?_⟩
      simp only [if_true, List.cons_append, List.nil_append]
      rw [bind_ok (get1st_gap h sk l.g2 hl.g2.1 45 (by decide) (by decide) _),
        bind_ok (getInt_neg h 2 l.alt hl.alt 109 stopm _)]
    | false =>
      refine ⟨(l.alt.scaled 2 : Nat), ⟨by rw [Loc.height, hb]; simp only [Bool.false_eq_true, if_false]; omega, by omega⟩, fun k => ?_⟩
      obtain ⟨x, t, hx, e1⟩ := dec_cons hl.alt (109 :: (l.sizes.flatMap Size.text ++ e :: r))
      simp only [Bool.false_eq_true, if_false, List.nil_append]
      have hsg : isSigned x.toNat = true := by simp [isSigned, (digit_facts x hx).1]
      rw [e1, bind_ok (get1st_gap h sk l.g2 hl.g2.1 x hsg (digit_facts x hx).2.1 t),
        bind_ok (getInt_run h 2 l.alt hl.alt 109 stopm _ x t e1)]
  obtain ⟨A, ⟨hA, hA2⟩, r3⟩ := r3
  obtain ⟨c2, t2, e2, hr2, hne⟩ : ∃ c2 t2, l.sizes.flatMap Size.text ++ e :: r = c2 :: t2 ∧ Rd c2 ∧ c2 ≠ 109 := by
    cases hz : l.sizes with
    | nil => exact ⟨e, r, rfl, hre, by rcases he with rfl | rfl <;> decide⟩
    | cons y ys =>
      refine ⟨y.sep, _, rfl, ?_⟩
      rcases (hl.sizes y (by simp [hz])).sep with hh | hh | hh <;> rw [hh] <;> unfold Rd <;> decide
  have hsz := sizes_run h e he r l.sizes 1000 none [] c2 t2 e2 hl.sizes (by simp; exact hl.three) (by have := hl.short; omega)
  simp only [Option.map_none, Option.toList_none, List.append_nil, List.nil_append] at hsz
  have hmode : (s.here c2 t2).mode = s.mode := rfl
  have hat : allowTilde (s.here c2 t2) = .ok (some (), s.here c2 t2) := by
    show Res.ok (some (), if (s.here c2 t2).mode = 103 then _ else _) = _
    rw [if_neg (by rw [hmode]; exact hm)]
  have hhigh := hl.high
  refine ⟨(sizeBytes l.sizes).getD 0 0x12, (sizeBytes l.sizes).getD 1 0x16, (sizeBytes l.sizes).getD 2 0x13, ?_, ?_⟩
  · rw [et, getLoc]
    have i1 : ([78, 110] : List UInt8).map (fun c => (c.toNat : Int)) = [78, 110] ∧
        ([83, 115] : List UInt8).map (fun c => (c.toNat : Int)) = [83, 115] ∧
        ([69, 101] : List UInt8).map (fun c => (c.toNat : Int)) = [69, 101] ∧
        ([87, 119] : List UInt8).map (fun c => (c.toNat : Int)) = [87, 119] := by decide
    rw [i1.1, i1.2.1] at r1
    rw [i1.2.2.1, i1.2.2.2] at r2
    rw [bind_ok r1, bind_ok r2, r3, bind_ok (int32_ok (by omega)), if_neg (by omega), e2, bind_ok (read_rd h 109 c2 t2 hr2),
      if_neg (show ¬ ((c2.toNat : Int) = 109) from toNat_ne hne), bind_pure']
    show (allowTilde >>= _) (s.here c2 t2) = _
    rw [bind_ok hat, bind_get, hmode, decide_eq_false hm,
      bind_ok hsz, pure_run, u32_be _ (val_lt hl.lat), u32_be _ (val_lt hl.lon), hA, Int.toNat_natCast, u32_be _ (by omega)]
  · have key : ∀ i d m, Tells d m ∧ d < 256 → Tells ((sizeBytes l.sizes).getD i d) (l.metres i m) ∧ (sizeBytes l.sizes).getD i d < 256 := by
      intro i d m hd
      rw [Loc.metres, sizeBytes, List.getD_eq_getElem?_getD, List.getElem?_map]
      cases hz : l.sizes[i]? with
      | none => exact hd
      | some z => exact sizeByte_says _ (hl.sizes z (List.mem_of_getElem? hz)).small
    have k0 := key 0 0x12 1 ⟨by unfold Tells cm; decide, by decide⟩
    have k1 := key 1 0x16 10000 ⟨by unfold Tells cm; decide, by decide⟩
    have k2 := key 2 0x13 10 ⟨by unfold Tells cm; decide, by decide⟩
    exact ⟨k0.2, k1.2, k2.2, k0.1, k1.1, k2.1⟩

/-- **NSAP addresses are read without trouble, and wrongly as soon as they have a letter.**
Whatever bytes are written in hexadecimal, with whatever dots between them, the parser accepts
them; what it makes of them is the address if, and only if, all the digits are decimal. -/
theorem nsap_exact_partial {s : Stream} (h : Plain s) (g : Gap) (hg : g.Ok) (bs : List HexByte) (hb : ∀ b ∈ bs, b.Ok)
    (hn : bs.length ≤ 250) (e : UInt8) (he : e = 10 ∨ e = 13 ∨ e = 9 ∨ e = 32 ∨ e = 124) (r : List UInt8) :
    ∃ d, getHex (s.here (last g.first) (pieces g.rest ++ 48 :: 120 :: (bs.flatMap HexByte.text ++ e :: r))) =
        .ok (some d, s.here e r) ∧ d.length = bs.length ∧
      (d = bs.map HexByte.data ↔ ∀ b ∈ bs, b.decimal = true) := by
  have hre : Rd e ∧ isDelim e.toNat = true := by rcases he with rfl | rfl | rfl | rfl | rfl <;> unfold Rd <;> decide
  refine ⟨bs.map asRead, ?_, by simp, ?_⟩
  · rw [getHex, bind_ok (get1st_gap h skips_number g hg 48 (by decide) (by decide) _), if_neg (by decide), bind_get, just_here h,
      if_neg (by decide), bind_ok (read_rd h 48 120 _ (by unfold Rd; decide)), if_neg (by decide),
      hex_run h e hre.1 hre.2 r bs 250 [] 120 hb hn]
    rfl
  · clear hn
    induction bs with
    | nil => simp
    | cons b bs ih =>
      rw [List.map_cons, List.map_cons, List.cons.injEq, asRead_iff (hb b (by simp)), ih (fun y hy => hb y (by simp [hy]))]
      simp

end Csv2
end Mara
