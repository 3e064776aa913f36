import Verif.Mara.AnyLookup
import Verif.Mara.BigHashProps
/-!
# Lemmas: there is nothing in the big hash but names and stars
-/

namespace Mara
namespace Big

open Dw (Res)
open Lookup (getRtype changeRtype u16)
open Spec Given

/-- Nothing is stored under fewer than two bytes. -/
def Long (s : Store) : Prop := ∀ l, l.length < 2 → s.dict l = none

theorem Long.set {s : Store} (h : Long s) {k : List UInt8} (hk : 2 ≤ k.length) (v : Option Cell) : Long (s.set k v) := by
  intro l hl
  unfold Store.set
  simp only
  rw [if_neg]
  · exact h l hl
  · intro e
    rw [e] at hl
    omega

theorem changeRtype_length {l l' : List UInt8} {t : Nat} (h : changeRtype l t = some l') : l'.length = l.length ∧ 3 ≤ l.length := by
  unfold changeRtype at h
  split at h
  · cases h
  split at h
  · cases h
  injection h with h
  rw [← h]
  simp
  omega

theorem Long.anyAdd {s s' : Store} (h : Long s) {q : List UInt8} {i : Nat} {b : Bool} (e : anyAdd s q i = .ok (b, s')) : Long s' := by
  unfold Big.anyAdd at e
  split at e
  · cases e; exact h
  split at e
  · cases e; exact h
  split at e
  · cases e; exact h
  rename_i k hk
  have := changeRtype_length hk
  split at e
  · cases e; exact h.set (by omega) _
  · cases e
  · split at e
    · cases e; exact h
    · cases e; exact h.set (by omega) _

theorem Long.anyZap {s s' : Store} (h : Long s) {q : List UInt8} {i : Nat} {b : Bool} (e : anyZap s q i = .ok (b, s')) : Long s' := by
  unfold Big.anyZap at e
  split at e
  · cases e; exact h
  split at e
  · cases e; exact h
  rename_i k hk
  have := changeRtype_length hk
  split at e
  · cases e; exact h
  · cases e
  · cases e
  · split at e
    · cases e; exact h.set (by omega) _
    · split at e
      · cases e; exact h.set (by omega) _
      · cases e; exact h

theorem bind_ok {α β : Type} {a : Res α} {f : α → Res β} {b : β} (h : (a >>= f) = .ok b) : ∃ x, a = .ok x ∧ f x = .ok b := by
  cases a with
  | ok x => exact ⟨x, rfl, h⟩
  | err => cases h
  | ub => cases h

theorem Long.putRr {s s' : Store} (h : Long s) {q d : List UInt8} (hq : 3 ≤ q.length) {ttl : Nat} {a b : Bool} (e : putRr s q d ttl a = .ok (b, s')) : Long s' := by
  unfold Big.putRr at e
  split at e
  · cases e; exact h
  obtain ⟨⟨ok, s2⟩, h1, e⟩ := bind_ok e
  have h2 : Long s2 := by
    refine Long.anyAdd ?_ h1
    split
    · exact h
    · exact Long.set (s := { s with heap := _ }) h (by omega) _
  simp only at e
  split at e
  · cases e; exact h2
  · split at e
    · cases e; exact h2
    · cases e; exact h2

theorem Long.addRr {s s' : Store} (h : Long s) {q d : List UInt8} {ttl : Nat} {a b : Bool} (e : addRr s q d ttl a = .ok (b, s')) : Long s' := by
  unfold Big.addRr at e
  split at e
  · cases e; exact h
  split at e
  · cases e; exact h
  · cases e; exact h
  obtain ⟨_, _, e⟩ := bind_ok e
  obtain ⟨_, _, e⟩ := bind_ok e
  obtain ⟨_, _, e⟩ := bind_ok e
  cases e
  exact h

theorem Long.addNs {s s' : Store} (h : Long s) {q z : List UInt8} {b : Bool} (e : addNs s q z = .ok (b, s')) : Long s' := by
  unfold Big.addNs at e
  split at e
  · cases e; exact h
  split at e
  · cases e; exact h
  split at e
  · cases e; exact h
  split at e
  · cases e; exact h
  split at e
  · cases e; exact h
  · cases e; exact h
  split at e
  · cases e; exact h
  · cases e; exact h
  obtain ⟨_, _, e⟩ := bind_ok e
  obtain ⟨_, _, e⟩ := bind_ok e
  cases e
  exact h

theorem Long.putWithNs {s s' : Store} (h : Long s) {q d z : List UInt8} (hq : 3 ≤ q.length) {ttl : Nat} {a b : Bool}
    (e : putWithNs s q d ttl z a = .ok (b, s')) : Long s' := by
  unfold Big.putWithNs at e
  obtain ⟨⟨ok, s2⟩, h1, e⟩ := bind_ok e
  have h2 := h.putRr hq h1
  simp only at e
  split at e
  · cases e; exact h2
  · exact h2.addNs e

theorem Long.add {s s' : Store} (h : Long s) {q d z : List UInt8} {ttl : Nat} {b : Bool} (e : add s q d ttl z = .ok (b, s')) : Long s' := by
  unfold Big.add at e
  split at e
  · cases e; exact h
  rename_i hlen
  have hq : 3 ≤ q.length := by omega
  split at e
  · cases e; exact h
  split at e
  · cases e; exact h
  split at e
  · cases e; exact h
  split at e
  · exact h.putWithNs hq e
  · cases e; exact h
  obtain ⟨p, _, e⟩ := bind_ok e
  split at e
  · exact h.addRr e
  split at e
  · obtain ⟨⟨ok, s2⟩, h1, e⟩ := bind_ok e
    have h2 : Long s2 := (h.set (by omega) none).anyZap h1
    simp only at e
    split at e
    · cases e; exact h2
    · refine Long.putWithNs ?_ hq e
      exact h2
  · cases e; exact h

theorem Long.load : ∀ {gs : List Given} {s s' : Store}, Long s → load gs s = .ok s' → Long s'
  | [], s, s', h, e => by cases e; exact h
  | g :: gs, s, s', h, e => by
    unfold Big.load at e
    obtain ⟨s2, h1, e⟩ := bind_ok e
    unfold give at h1
    obtain ⟨⟨b, s3⟩, h2, h3⟩ := bind_ok h1
    cases h3
    exact Long.load (h.add h2) e

theorem u16_bytes (x y : UInt8) : u16 (x.toNat * 256 + y.toNat) = [x, y] := by
  have hx := x.toNat_lt
  have hy := y.toNat_lt
  unfold u16
  rw [show (x.toNat * 256 + y.toNat) / 256 = x.toNat by omega]
  have e : UInt8.ofNat (x.toNat * 256 + y.toNat) = y := by
    apply UInt8.toNat_inj.1
    simp only [UInt8.toNat_ofNat']
    omega
  rw [e]
  simp

theorem split_two {l : List UInt8} (h : 2 ≤ l.length) : ∃ b x y, l = b ++ [x, y] := by
  refine ⟨l.take (l.length - 2), l[l.length - 2], l[l.length - 1], ?_⟩
  conv => lhs; rw [← List.take_append_drop (l.length - 2) l]
  congr 1
  rw [List.drop_eq_getElem_cons (by omega), List.drop_eq_getElem_cons (by omega), List.drop_eq_nil_of_le (by omega)]
  congr 2
  congr 1
  omega

/-- All that is found in the big hash is the key of a name or a star. -/
theorem dict_only {gs : List Given} {s : Store} {A : Key → Option Ent} {own : Key → List Nat} {L : List UInt8 → List (Nat × Nat)}
    (inv : Inv s A own L) (ag : Agrees A gs) (hl : Long s) {l : List UInt8} (h : s.dict l ≠ none) :
    ∃ n t, LabelsOk n ∧ (l = encName n ++ u16 t ∨ l = 95 :: (encName n ++ u16 t)) := by
  have h2 : 2 ≤ l.length := by
    by_contra hlt
    exact h (hl l (by omega))
  obtain ⟨b, x, y, rfl⟩ := split_two h2
  have hx := x.toNat_lt
  have hy := y.toNat_lt
  rw [← u16_bytes] at h ⊢
  generalize ht : x.toNat * 256 + y.toNat = t at h ⊢
  have hown : ∃ u, own (b, u) ≠ [] := by
    by_cases h255 : t = 255
    · subst h255
      have hd : s.dict (b ++ u16 255) = _ := inv.any b
      rw [hd] at h
      cases hL : L b with
      | nil => rw [hL] at h; simp at h
      | cons e r =>
        have := (inv.list b e.1 e.2).1 (by rw [hL]; simp)
        exact ⟨e.1, fun e' => by rw [e'] at this; cases this⟩
    · have hd : s.dict (b ++ u16 t) = _ := inv.dict (b, t) (by dsimp only; omega) h255
      rw [hd] at h
      exact ⟨t, fun e' => h (by rw [e']; rfl)⟩
  obtain ⟨u, hu⟩ := hown
  cases hA : A (b, u) with
  | none => exact absurd ((inv.none_iff _).1 hA) hu
  | some e =>
    obtain ⟨star, n, hn, hb⟩ := ag.only _ _ hA
    dsimp only at hb
    refine ⟨n, t, hn, ?_⟩
    rw [hb]
    cases star
    · exact .inl rfl
    · exact .inr rfl

end Big
end Mara
