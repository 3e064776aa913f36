import Verif.Deadwood.DissectFinish
import Verif.Deadwood.NsProps
/-!
# Lemmas: a referral is a list of servers
-/

namespace Dw
namespace Dissect

open DwStr Spec Ns

theorem flatMap_be16_get : ∀ (ps : List Nat) (i : Nat) (h : i < ps.length),
    (ps.flatMap be16)[2 * i]? = some (UInt8.ofNat (ps[i] / 256)) ∧ (ps.flatMap be16)[2 * i + 1]? = some (UInt8.ofNat ps[i])
  | [], i, h => by simp at h
  | p :: ps, 0, _ => by simp [be16]
  | p :: ps, i + 1, h => by
    have ih := flatMap_be16_get ps i (by simpa using h)
    simp only [List.flatMap_cons, List.getElem_cons_succ]
    rw [show 2 * (i + 1) = 2 * i + 2 by omega, show 2 * i + 2 + 1 = (2 * i + 1) + 2 by omega]
    simpa [be16] using ih

theorem place_get : ∀ (es : List (List UInt8)) (n i : Nat) (h : i < es.length),
    ∃ h', (place n es)[i]'h' = n + (es.take i).flatten.length
  | [], n, i, h => by simp at h
  | e :: es, n, 0, _ => ⟨by simp [place], by simp [place]⟩
  | e :: es, n, i + 1, h => by
    obtain ⟨h', ih⟩ := place_get es (n + e.length) i (by simpa using h)
    refine ⟨by simpa [place] using h', ?_⟩
    simp only [place, List.getElem_cons_succ, ih, List.take_succ_cons, List.flatten_cons, List.length_append]
    omega

/-- The servers of a referral, in the order in which they are counted: the last first. -/
def serversOf (n : Nat) (es : List (List UInt8)) : List (Nat × Nat) :=
  ((place n es).zip (es.map fun e => (e.headD 0).toNat)).reverse

theorem serversOf_length (n : Nat) (es : List (List UInt8)) : (serversOf n es).length = es.length := by
  simp [serversOf, place_length]

theorem serversOf_get (n : Nat) (es : List (List UInt8)) (a : Nat) (h : a < es.length) :
    (serversOf n es)[a]? = some (n + (es.take (es.length - 1 - a)).flatten.length, (es[es.length - 1 - a].headD 0).toNat) := by
  have hl : ((place n es).zip (es.map fun e => (e.headD 0).toNat)).length = es.length := by simp [place_length]
  obtain ⟨h', hp⟩ := place_get es n (es.length - 1 - a) (by omega)
  unfold serversOf
  rw [List.getElem?_reverse (by omega), hl, List.getElem?_eq_getElem (by omega)]
  simp [hp]

theorem take_flatten_le (es : List (List UInt8)) (i : Nat) : (es.take i).flatten.length ≤ es.flatten.length := by
  have h : es.flatten = (es.take i).flatten ++ (es.drop i).flatten := by
    rw [← List.flatten_append, List.take_append_drop]
  rw [h, List.length_append]
  omega

theorem flatten_at (es : List (List UInt8)) (i : Nat) (h : i < es.length) (hne : es[i] ≠ []) :
    es.flatten[(es.take i).flatten.length]? = some (es[i].headD 0) := by
  have : es.flatten = (es.take i).flatten ++ es[i] ++ (es.drop (i + 1)).flatten := by
    have h1 : es.flatten = (es.take i).flatten ++ (es.drop i).flatten := by
      rw [← List.flatten_append, List.take_append_drop]
    rw [h1, List.drop_eq_getElem_cons h, List.flatten_cons, List.append_assoc]
  rw [this, List.append_assoc, List.getElem?_append_right (by omega)]
  cases hx : es[i] with
  | nil => exact absurd hx hne
  | cons b bs => simp

theorem referral_lists {zone : List UInt8} {es : List (List UInt8)} (h0 : es ≠ []) (h31 : es.length ≤ 31)
    (hne : ∀ e ∈ es, e ≠ []) (hsz : zone.length + es.flatten.length < 65536) :
    Lists (referral zone es) (serversOf zone.length es) := by
  have hpos : 0 < es.length := List.length_pos_iff.2 h0
  have hsl := serversOf_length zone.length es
  have hpl := place_length es zone.length
  have hfl := flatMap_be16_length (place zone.length es)
  have hlen : (referral zone es).length = zone.length + es.flatten.length + 2 * es.length + 2 := by
    simp only [referral, List.length_append, hfl, hpl, List.length_cons, List.length_nil]
  have hmid : ∀ i, i < 2 * es.length → (referral zone es)[zone.length + es.flatten.length + i]? =
      ((place zone.length es).flatMap be16)[i]? := by
    intro i hi
    unfold referral
    rw [List.getElem?_append_left (by simp only [List.length_append, hfl, hpl]; omega),
      List.getElem?_append_right (by simp), List.length_append]
    congr 1
    omega
  have hend : ∀ i, (referral zone es)[zone.length + es.flatten.length + 2 * es.length + i]? = [UInt8.ofNat es.length, (16 : UInt8)][i]? := by
    intro i
    unfold referral
    rw [List.getElem?_append_right (by simp only [List.length_append, hfl, hpl]; omega)]
    congr 1
    simp only [List.length_append, hfl, hpl]; omega
  have hat : ∀ a (h : a < es.length),
      ((referral zone es)[(referral zone es).length - 4 - 2 * a]?.getD 0).toNat = (serversOf zone.length es)[a].1 / 256 ∧
      ((referral zone es)[(referral zone es).length - 3 - 2 * a]?.getD 0).toNat = (serversOf zone.length es)[a].1 % 256 := by
    intro a ha
    obtain ⟨h', hp⟩ := place_get es zone.length (es.length - 1 - a) (by omega)
    obtain ⟨g1, g2⟩ := flatMap_be16_get (place zone.length es) (es.length - 1 - a) h'
    have hg := serversOf_get zone.length es a ha
    rw [List.getElem?_eq_getElem (by omega)] at hg
    have hg := Option.some.inj hg
    have hle := take_flatten_le es (es.length - 1 - a)
    rw [hg, hlen, show zone.length + es.flatten.length + 2 * es.length + 2 - 4 - 2 * a =
        zone.length + es.flatten.length + 2 * (es.length - 1 - a) by omega,
      show zone.length + es.flatten.length + 2 * es.length + 2 - 3 - 2 * a =
        zone.length + es.flatten.length + (2 * (es.length - 1 - a) + 1) by omega,
      hmid _ (by omega), hmid _ (by omega), g1, g2, hp]
    generalize hv : zone.length + (es.take (es.length - 1 - a)).flatten.length = v
    have hv' : v < 65536 := by omega
    simp only [Option.getD_some, UInt8.toNat_ofNat']
    constructor
    · omega
    · trivial
  refine ⟨by omega, by omega, by omega, .inl ?_, ?_, fun a h => (hat a (by omega)).1, fun a h => (hat a (by omega)).2, ?_⟩
  · rw [hlen, show zone.length + es.flatten.length + 2 * es.length + 2 - 1 =
      zone.length + es.flatten.length + 2 * es.length + 1 by omega, hend]
    rfl
  · rw [hlen, show zone.length + es.flatten.length + 2 * es.length + 2 - 2 =
      zone.length + es.flatten.length + 2 * es.length + 0 by omega, hend, hsl]
    rfl
  · intro p hp
    obtain ⟨a, ha, rfl⟩ := List.getElem_of_mem hp
    have hg := serversOf_get zone.length es a (by omega)
    rw [List.getElem?_eq_getElem (by omega)] at hg
    rw [Option.some.inj hg]
    have hlt : es.length - 1 - a < es.length := by omega
    have hf := flatten_at es (es.length - 1 - a) hlt (hne _ (List.getElem_mem hlt))
    refine ⟨?_, by have := (es[es.length - 1 - a].headD 0).toNat_lt; omega⟩
    have hb : (es.take (es.length - 1 - a)).flatten.length < es.flatten.length := by
      by_contra hc
      rw [List.getElem?_eq_none (by omega)] at hf
      cases hf
    unfold referral
    simp only
    rw [List.append_assoc, List.append_assoc, List.getElem?_append_right (by omega), List.getElem?_append_left (by omega),
      show zone.length + (es.take (es.length - 1 - a)).flatten.length - zone.length = (es.take (es.length - 1 - a)).flatten.length by omega, hf]
    simp

end Dissect
end Dw
