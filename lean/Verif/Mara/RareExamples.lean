import Verif.Mara.RareWks
import Verif.Mara.Csv2Props

/-!
# Examples and findings: LOC, NSAP and WKS records
-/

namespace Mara
namespace Csv2

open Dw (Res)
open Spec (ascii)
open Spec.ZoneText Spec.Rare

/-- A zone file without tildes, after the type of a record. -/
def rareAt (t : String) : Stream := (Stream.start 2 []).here 32 (ascii t)

/-- The data of a record that is read. -/
def dataOf : Res (Option (List UInt8) × Stream) → Option (List UInt8)
  | .ok (d, _) => d
  | _ => none

theorem rare_plain : Plain (Stream.start 2 []) := ⟨rfl, rfl, rfl, by decide⟩

theorem exGapOk : GapOk exGap := ⟨exGap_ok, rfl⟩

/-! ## LOC -/

def exDec (w : String) (f : Option String) : Dec := ⟨ascii w, f.map ascii⟩

theorem dec_ok {m : Nat} {d : Dec} (h : d.whole.all isDigit = true ∧ d.whole ≠ [] ∧ d.whole.length < 100 ∧
    (d.frac.getD []).all isDigit = true ∧ (d.frac.getD []).length ≤ m ∧ d.scaled m ≤ 2147483647) : d.Ok m :=
  ⟨fun c hc => List.all_eq_true.mp h.1 c hc, h.2.1, h.2.2.1,
    fun f hf c hc => List.all_eq_true.mp h.2.2.2.1 c (by rw [show d.frac = some f from hf]; exact hc),
    fun f hf => by have := h.2.2.2.2.1; rw [show d.frac = some f from hf] at this; exact this, h.2.2.2.2.2⟩

def exLat : Angle := ⟨exDec "42" none, exGap, exDec "21" none, exGap, exDec "54" (some "5"), exGap, 78⟩
def exLon : Angle := ⟨exDec "71" none, exGap, exDec "06" none, exGap, exDec "18" none, exGap, 87⟩
def exLoc : Loc := ⟨exLat, exGap, exLon, exGap, true, exDec "24" (some "5"), [⟨32, ascii "30"⟩]⟩

theorem exLat_ok : exLat.Ok [78, 110] [83, 115] :=
  ⟨dec_ok (by decide +kernel), dec_ok (by decide +kernel), dec_ok (by decide +kernel), exGapOk, exGapOk, exGapOk,
    by decide, by decide +kernel, ⟨rfl, rfl⟩⟩

theorem exLon_ok : exLon.Ok [69, 101] [87, 119] :=
  ⟨dec_ok (by decide +kernel), dec_ok (by decide +kernel), dec_ok (by decide +kernel), exGapOk, exGapOk, exGapOk,
    by decide, by decide +kernel, ⟨rfl, rfl⟩⟩

theorem exLoc_ok : exLoc.Ok := by
  refine ⟨exLat_ok, exLon_ok, exGapOk, exGapOk, dec_ok (by decide +kernel), by decide +kernel, fun _ => by decide +kernel, ?_,
    by decide +kernel, by decide +kernel⟩
  intro z hz
  simp only [exLoc, List.mem_cons, List.not_mem_nil, or_false] at hz
  subst hz
  exact ⟨by decide, fun c hc => List.all_eq_true.mp (by decide +kernel : (ascii "30").all isDigit = true) c hc, by decide +kernel, by decide +kernel⟩

example : exLoc.text = ascii "42 21 54.5 N 71 06 18 W -24.5m 30m" := by decide +kernel

example : ∃ a b c : Nat, getLoc ((Stream.start 2 []).here 32 (exLoc.text ++ 10 :: ascii "next")) =
    .ok (some ([0, UInt8.ofNat a, UInt8.ofNat b, UInt8.ofNat c] ++ Spec.be32 (2147483648 + 152514500) ++
      Spec.be32 (2147483648 - 255978000) ++ Spec.be32 9997550), (Stream.start 2 []).here 10 (ascii "next")) ∧
    a < 256 ∧ b < 256 ∧ c < 256 ∧ Tells a 30 ∧ Tells b 10000 ∧ Tells c 10 := by
  have h := loc_exact rare_plain (by decide) exGap exGap_ok exLoc exLoc_ok 10 (Or.inl rfl) (ascii "next")
  have e : exLoc.lat.val [78, 110] = 2147483648 + 152514500 ∧ exLoc.lon.val [69, 101] = 2147483648 - 255978000 ∧
      exLoc.height = 9997550 ∧ exLoc.metres 0 1 = 30 ∧ exLoc.metres 1 10000 = 10000 ∧ exLoc.metres 2 10 = 10 := by decide +kernel
  rw [e.1, e.2.1, e.2.2.1, e.2.2.2.1, e.2.2.2.2.1, e.2.2.2.2.2] at h
  exact h

/-- **A latitude that is not one is zero.**  A letter that is not a direction does not make the record
fail: the latitude is 0, and what is read next is what is left of it. -/
theorem loc_wrong_zero : dataOf (getLoc (rareAt "42 X 71 W 0m\n")) =
    some ([0, 0x12, 0x16, 0x13, 0, 0, 0, 0, 0, 0, 0, 0] ++ Spec.be32 10000000) := by
  decide +kernel

/-- **Many degrees are undefined behaviour**: 597 degrees do not fit into an `int`. -/
theorem loc_degrees_ub : getLoc (rareAt "597 0 0 N 0 0 0 E 0m\n") = .ub := by
  decide +kernel

/-- **An altitude without `m` at the end of a line takes the next line too**, here the number at its
beginning. -/
theorem loc_next_line : getLoc (rareAt "1 N 1 E 10\n5m\n") =
    .ok (some ([0, 0x52, 0x16, 0x13] ++ Spec.be32 (2147483648 + 3600000) ++ Spec.be32 (2147483648 + 3600000) ++ Spec.be32 10001000),
      (Stream.start 2 []).here 10 []) := by
  decide +kernel

/-! ## NSAP -/

def exNsap : List HexByte := [⟨0, 52, 55⟩, ⟨1, 48, 48⟩, ⟨0, 48, 53⟩]

example : ∃ d, getHex ((Stream.start 2 []).here 32 (48 :: 120 :: (exNsap.flatMap HexByte.text ++ 10 :: ascii "n"))) =
    .ok (some d, (Stream.start 2 []).here 10 (ascii "n")) ∧ d.length = 3 ∧
    (d = exNsap.map HexByte.data ↔ ∀ b ∈ exNsap, b.decimal = true) :=
  nsap_exact_partial rare_plain exGap exGap_ok exNsap
    (by intro b hb; simp only [exNsap, List.mem_cons, List.not_mem_nil, or_false] at hb; rcases hb with rfl | rfl | rfl <;> exact ⟨by decide, by decide, by decide⟩) (by decide) 10 (Or.inl rfl) (ascii "n")

example : exNsap.flatMap HexByte.text = ascii "47.0005" ∧ exNsap.map HexByte.data = [0x47, 0, 5] ∧
    ∀ b ∈ exNsap, b.decimal = true := by decide +kernel

/-- **NSAP addresses with letters are served wrongly**: `0x47.ff` is 47 55. -/
theorem nsap_letter_wrong : dataOf (getHex (rareAt "0x47.ff\n")) = some [0x47, 0x55] := by
  decide +kernel

/-! ## WKS -/

example : ∃ bits, getWks ((Stream.start 2 []).here 32 (ascii "10.0.0.1" ++ (exGap.text ++ (ascii "6" ++ (exGap.text ++
      ([⟨ascii "25", 44⟩, ⟨ascii "80", 44⟩].flatMap Port.text ++ (ascii "110" ++ 10 :: ascii "n"))))))) =
    .ok (some ([10, 0, 0, 1] ++ UInt8.ofNat 6 :: bits), (Stream.start 2 []).here 10 (ascii "n")) ∧
    ∀ p, hasPort bits p = true ↔ p ∈ [25, 80] :=
  wks_exact_partial (s := Stream.start 2 []) rare_plain (by decide) exGap exGap_ok ⟨ascii "10", ascii "0", ascii "0", ascii "1"⟩
    ⟨by decide +kernel, by decide +kernel⟩ exGap exGap_ok (ascii "6") (num_ok (by decide +kernel) (by decide +kernel) (by decide +kernel) (by decide +kernel))
    exGap exGap_ok [⟨ascii "25", 44⟩, ⟨ascii "80", 44⟩]
    (by
      intro q hq
      simp only [List.mem_cons, List.not_mem_nil, or_false] at hq
      rcases hq with rfl | rfl <;> exact ⟨by decide, by decide +kernel, by decide +kernel, by decide +kernel⟩)
    (by decide) (ascii "110") (by decide +kernel) (by decide +kernel) (by decide +kernel) (by decide +kernel) 10 (Or.inl rfl) (ascii "n")

/-- **One port alone is no port**: the bitmap of `25` is empty. -/
theorem wks_one_port : dataOf (getWks (rareAt "10.0.0.1 6 25\n")) = some [10, 0, 0, 1, 6, 0, 0, 0, 0] := by
  decide +kernel

/-- **A blank after a comma is port 0.** -/
theorem wks_blank_port : ∃ bits, dataOf (getWks (rareAt "10.0.0.1 6 25, 80\n")) = some ([10, 0, 0, 1, 6] ++ bits) ∧
    hasPort bits 0 = true ∧ hasPort bits 25 = true ∧ hasPort bits 80 = false :=
  ⟨[128, 0, 0, 64, 0, 0, 0, 0, 0, 0, 0], by decide +kernel⟩

end Csv2
end Mara
