import Verif.Mara.LookupLemmas
import Mathlib.Tactic.SplitIfs
/-!
# Lemmas: the searches of `proc_query` in terms of names
-/

namespace Mara
namespace Lookup

open Dw (Res)
open Spec

variable {ρ : Type}

/-- The big hash holds what the server has been given: record sets under the name and the type,
star records with an underscore in front, lists of what there is under type 255; there are no
record sets of type 255, and nothing under names with capitals. -/
structure Stores (h : Hash ρ) (z : Zone ρ) : Prop where
  rr : ∀ n t, LabelsOk n → t < 65536 → rrOf (h (encName n ++ u16 t)) = z.rr n t
  star : ∀ n t, LabelsOk n → t < 65536 → (rrOf (h (95 :: (encName n ++ u16 t)))).map (·.2) = z.star n t
  exists? : ∀ n, LabelsOk n → isList (h (encName n ++ u16 255)) = z.exists? n
  starExists : ∀ n, LabelsOk n → isList (h (95 :: (encName n ++ u16 255))) = z.starExists n
  noAny : ∀ n, LabelsOk n → z.star n 255 = none
  small : ∀ n, LabelsOk n → z.exists? n = true → lowName n = n

theorem upward_eq (n : Name) : upward n = n :: (match n with | [] => [] | _ :: m => upward m) := by
  cases n <;> rfl

/-- The names above a name. -/
def above : Name → List Name
  | [] => []
  | _ :: m => upward m

theorem upward_above (n : Name) : upward n = n :: above n := by cases n <;> rfl

theorem Stores.rrNone {h : Hash ρ} {z : Zone ρ} (s : Stores h z) {n : Name} {t : Nat} (hn : LabelsOk n) (ht : t < 65536) :
    rrOf (h (key n t)) = z.rr n t := s.rr n t hn ht

theorem nsWalk_spec {h : Hash ρ} {z : Zone ρ} (s : Stores h z) : ∀ (n : Name) (k : Nat), Fits n → n.length < k →
    nsWalk h k (key n 2) = match z.closestNs n with
      | none => .nothing
      | some (_, false, r) => .referral r
      | some (apex, true, _) => .authority ((z.rr apex 6).map (·.2))
  | n, k + 1, hf, hk => by
    unfold nsWalk
    rw [s.rrNone hf.1 (by omega)]
    unfold Zone.closestNs
    rw [upward_above, List.findSome?_cons]
    cases hr : z.rr n 2 with
    | some v =>
      obtain ⟨a, r⟩ := v
      cases a
      · rfl
      · simp only [Option.map_some, changeRtype_key _ _ 6 (by omega), s.rrNone hf.1 (show 6 < 65536 by omega)]
    | none =>
      simp only [Option.map_none]
      cases n with
      | nil => simp [bobbitLabel_nil, above]
      | cons l m =>
        rw [bobbitLabel_cons hf]
        simp only
        rw [nsWalk_spec s m k hf.tail (by simpa using hk)]
        rfl

/-- A search that gives nothing below the type 255 list. -/
theorem starAbove_one {h : Hash ρ} {z : Zone ρ} (s : Stores h z) {cfg : Cfg} (hb : cfg.bindStar = 1)
    (soa : Option ρ) (orig : List UInt8) {t : Nat} (ht : t < 65536) :
    ∀ (n : Name) (k ant : Nat), LabelsOk n → (encName n).length ≤ 252 → n.length < k →
    starAbove cfg h soa orig k (95 :: key n t) ant =
      match (above n).findSome? fun m => z.star m t with
      | some r => .out (.star r orig 0)
      | none => .go (if (above n).any z.starExists then 4 else ant)
  | [], k + 1, ant, _, _, _ => by
    unfold starAbove
    rw [bobbitStar_nil]
    rfl
  | l :: n, k + 1, ant, ho, hl, hk => by
    have hx := encName_cons_length l n
    have ho' : LabelsOk n := ho.tail
    have e1 := s.star n t ho' ht
    have e2 := s.starExists n ho'
    change (rrOf (h (95 :: key n t))).map _ = _ at e1
    change isList (h (95 :: key n 255)) = _ at e2
    have ih := fun ant => starAbove_one s hb soa orig ht n k ant ho' (by omega) (by simpa using hk)
    unfold starAbove
    rw [bobbitStar_cons ho hl]
    have ea : above (l :: n) = n :: above n := upward_above n
    rw [ea, List.findSome?_cons, List.any_cons]
    simp only
    cases hr : rrOf (h (95 :: key n t)) with
    | some v =>
      rw [hr] at e1
      simp only [Option.map_some] at e1
      rw [← e1]
    | none =>
      rw [hr] at e1
      simp only [Option.map_none] at e1
      rw [← e1]
      simp only
      rw [if_pos (by omega), changeRtype_skey n t 255 (by omega)]
      simp only
      rw [e2, hb]
      simp only [show ¬ (1 = 2) by omega, if_false]
      rw [ih, ih]
      cases hf : (above n).findSome? fun m => z.star m t <;> simp only <;> cases z.starExists n <;> simp

theorem cnameAbove_one {h : Hash ρ} {z : Zone ρ} (s : Stores h z) {cfg : Cfg} (hb : 1 ≤ cfg.bindStar)
    (orig : List UInt8) : ∀ (n : Name) (k ant : Nat), LabelsOk n → (encName n).length ≤ 252 → n.length < k →
    cnameAbove cfg h orig k (95 :: key n 5) ant = .go ant
  | [], k + 1, ant, _, _, _ => by
    unfold cnameAbove
    rw [bobbitStar_nil]
  | l :: n, k + 1, ant, ho, hl, hk => by
    have hx := encName_cons_length l n
    have e1 := s.star n 255 ho.tail (by omega)
    rw [s.noAny _ ho.tail] at e1
    change (rrOf (h (95 :: key n 255))).map _ = _ at e1
    have hr : rrOf (h (95 :: key n 255)) = none := by
      cases hv : rrOf (h (95 :: key n 255)) with
      | none => rfl
      | some v => rw [hv] at e1; cases e1
    have ih := cnameAbove_one s hb orig n k ant ho.tail (by omega) (by simpa using hk)
    unfold cnameAbove
    rw [bobbitStar_cons ho hl]
    simp only
    rw [if_pos hb, changeRtype_skey n 5 255 (by omega)]
    simp only
    rw [hr]
    simp only [Option.getD_none]
    rw [ih]
    split <;> rfl

theorem Fits.len {n : Name} (h : Fits n) : n.length ≤ 126 := by
  have := Fits.labels h.1
  have := h.2
  omega

theorem findSome_pair (z : Zone ρ) (t : Nat) : ∀ l : List Name,
    (l.findSome? fun s => (z.star s t).map (·, t)) = (l.findSome? fun s => z.star s t).map (·, t)
  | [] => rfl
  | n :: l => by
    rw [List.findSome?_cons, List.findSome?_cons, findSome_pair z t l]
    cases z.star n t <;> rfl

/-- The search for star records with `bind_star_handling` 1. -/
theorem stars_one {h : Hash ρ} {z : Zone ρ} (s : Stores h z) {cfg : Cfg} (hb : cfg.bindStar = 1)
    (hd : cfg.dos ≤ 7) (soa : Option ρ) {l : List UInt8} {m : Name} (hf : Fits (l :: m)) {t : Nat} (ht : t < 65536) :
    stars cfg h soa (key (l :: m) t) 0 =
      if z.exists? (lowName (l :: m)) then .go 4
      else match z.wildcardFor (lowName (l :: m)) t with
        | some (r, u) => .out (.star r (key (l :: m) u) 0)
        | none => .go (if z.covered (lowName (l :: m)) then 4 else 0) := by
  have hfl := hf.lower
  have hlm : lowName (l :: m) = l.map lower :: lowName m := rfl
  have hfm : Fits (lowName m) := by rw [hlm] at hfl; exact hfl.tail
  have hlen : (encName (lowName m)).length ≤ 251 := by
    have h1 := hfl.2
    have h2 := hfl.1
    rw [hlm] at h1 h2
    rw [encName_cons_length] at h1
    have := h2.head
    omega
  have hex := s.exists? (lowName (l :: m)) hfl.1
  change isList (h (key (lowName (l :: m)) 255)) = _ at hex
  unfold stars
  rw [if_neg (by omega)]
  simp only
  rw [if_pos (by omega : cfg.bindStar ≥ 1), foldCase_key hf.1, changeRtype_key _ _ 255 (by omega)]
  simp only [Option.map_some]
  rw [hex]
  by_cases he : z.exists? (lowName (l :: m)) = true
  · rw [if_pos he, if_pos he]
  rw [if_neg he, if_neg he]
  have hms : makeStar (key (lowName (l :: m)) t) = .done 1 (95 :: key (lowName m) t) := by
    rw [hlm] at hfl ⊢
    exact makeStar_cons hfl t
  rw [hms]
  simp only
  have e1 := s.star (lowName m) t hfm.1 ht
  change (rrOf (h (95 :: key (lowName m) t))).map _ = _ at e1
  have e2 := s.starExists (lowName m) hfm.1
  change isList (h (95 :: key (lowName m) 255)) = _ at e2
  have e5 := s.star (lowName m) 5 hfm.1 (by omega)
  change (rrOf (h (95 :: key (lowName m) 5))).map _ = _ at e5
  have hw : z.wildcardFor (lowName (l :: m)) t = (((z.star (lowName m) t).or
      ((above (lowName m)).findSome? fun n => z.star n t)).map (·, t)).or ((z.star (lowName m) 5).map (·, 5)) := by
    unfold Zone.wildcardFor
    rw [hlm, List.tail_cons, findSome_pair, upward_above, List.findSome?_cons]
    cases z.star (lowName m) t <;> rfl
  have hc : z.covered (lowName (l :: m)) = (z.starExists (lowName m) || (above (lowName m)).any z.starExists) := by
    unfold Zone.covered
    rw [hlm, List.tail_cons, upward_above, List.any_cons]
  rw [hw, hc]
  cases hr : rrOf (h (95 :: key (lowName m) t)) with
  | some v =>
    rw [hr] at e1
    simp only [Option.map_some] at e1
    rw [← e1]
    rfl
  | none =>
    rw [hr] at e1
    simp only [Option.map_none] at e1
    rw [← e1]
    simp only [Option.none_or]
    rw [changeRtype_skey _ _ 255 (by omega)]
    simp only [Option.map_some]
    rw [if_pos (by omega : cfg.bindStar ≥ 1)]
    simp only
    rw [if_neg (by omega : ¬ cfg.bindStar = 2), e2, starAbove_one s hb soa _ ht (lowName m) 256 _ hfm.1 (by omega)
      (by have := hfm.len; omega)]
    cases hfs : (above (lowName m)).findSome? fun n => z.star n t with
    | some r => rfl
    | none =>
      simp only [Option.map_none, Option.none_or]
      rw [if_neg (by omega), changeRtype_skey _ _ 5 (by omega)]
      simp only
      cases hr5 : rrOf (h (95 :: key (lowName m) 5)) with
      | some v =>
        rw [hr5] at e5
        simp only [Option.map_some] at e5
        rw [← e5]
        simp only [Option.map_some, changeRtype_key _ _ 5 (by omega : 5 < 65536)]
      | none =>
        rw [hr5] at e5
        simp only [Option.map_none] at e5
        rw [← e5]
        simp only [Option.map_none]
        rw [cnameAbove_one s (by omega) _ (lowName m) 256 _ hfm.1 (by omega) (by have := hfm.len; omega)]
        cases z.starExists (lowName m) <;> cases (above (lowName m)).any z.starExists <;> rfl

/-- `ddip_check` reads the labels. -/
theorem ddipValue_eq : ∀ (l : List UInt8) (v : Nat), ddipValue l v =
    if ∀ c ∈ l, 48 ≤ c ∧ c ≤ 57 then some (l.foldl (fun v c => v * 10 + (c.toNat - 48)) v) else none
  | [], v => by simp [ddipValue]
  | c :: l, v => by
    unfold ddipValue
    rw [ddipValue_eq l]
    by_cases hc : c > 57 ∨ c < 48
    · rw [if_pos hc, if_neg]
      intro hall
      have := hall c (by simp)
      rcases hc with hc | hc
      · exact absurd this.2 (by simpa using hc)
      · exact absurd this.1 (by simpa using hc)
    · rw [if_neg hc]
      rw [not_or] at hc
      have h1 : 48 ≤ c ∧ c ≤ 57 := ⟨by simpa using hc.2, by simpa using hc.1⟩
      have : (∀ d ∈ c :: l, 48 ≤ d ∧ d ≤ 57) ↔ ∀ d ∈ l, 48 ≤ d ∧ d ≤ 57 := by
        simp only [List.forall_mem_cons]
        exact ⟨fun h => h.2, fun h => ⟨h1, h⟩⟩
      simp only [this, List.foldl_cons]

/-- Some labels that are numbers of a byte, and the labels after them. -/
def quads : Nat → Name → Option (List Nat × Name)
  | 0, q => some ([], q)
  | _ + 1, [] => none
  | n + 1, a :: q => do
    let v ← byteLabel a
    let (vs, r) ← quads n q
    some (v :: vs, r)

theorem ddipLoop_spec (t : Nat) : ∀ (n : Nat) (q : Name) (pre ip : List UInt8), LabelsOk q →
    ddipLoop (pre ++ key q t) n pre.length ip = match quads n q with
      | none => .no
      | some (vs, r) => .yes (ip ++ vs.map UInt8.ofNat) (pre.length + (encName q).length - (encName r).length)
  | 0, q, pre, ip, _ => by
    unfold ddipLoop quads
    simp
  | n + 1, [], pre, ip, _ => by
    unfold ddipLoop quads
    simp [key, encName_nil]
  | n + 1, a :: q, pre, ip, ho => by
    have h1 := ho.head
    unfold ddipLoop
    have e0 : (pre ++ key (a :: q) t).getD pre.length 0 = UInt8.ofNat a.length := by
      rw [key_cons]; simp
    simp only
    rw [e0, ofNat_len h1.2]
    have hlt : (UInt8.ofNat a.length < 1 ∨ UInt8.ofNat a.length > 3) ↔ 3 < a.length := by
      have : ∀ k : Fin 64, k.val ≠ 0 → ((UInt8.ofNat k < 1 ∨ UInt8.ofNat k > 3) ↔ 3 < k.val) := by decide +kernel
      exact this ⟨a.length, by omega⟩ (by simp; intro e; simp [e] at h1)
    have ed : ((pre ++ key (a :: q) t).drop (pre.length + 1)).take a.length = a := by
      rw [key_cons, show pre ++ UInt8.ofNat a.length :: (a ++ key q t) = (pre ++ [UInt8.ofNat a.length]) ++ (a ++ key q t) by simp,
        List.drop_left' (by simp), List.take_left]
    rw [ed, ddipValue_eq]
    unfold quads byteLabel
    by_cases h3 : 3 < a.length
    · rw [if_pos (hlt.2 h3)]
      simp [show ¬ a.length ≤ 3 by omega]
    · rw [if_neg (fun h => h3 (hlt.1 h)), if_neg (by rw [key_cons]; simp; omega)]
      by_cases hdig : ∀ c ∈ a, 48 ≤ c ∧ c ≤ 57
      · rw [if_pos hdig]
        simp only
        by_cases hv : a.foldl (fun v c => v * 10 + (c.toNat - 48)) 0 > 255
        · rw [if_pos hv]
          simp [show ¬ (a.foldl (fun v c => v * 10 + (c.toNat - 48)) 0 ≤ 255) by omega]
        · rw [if_neg hv]
          have ih := ddipLoop_spec t n q (pre ++ UInt8.ofNat a.length :: a)
            (ip ++ [UInt8.ofNat (a.foldl (fun v c => v * 10 + (c.toNat - 48)) 0)]) ho.tail
          have ee : pre ++ UInt8.ofNat a.length :: a ++ key q t = pre ++ key (a :: q) t := by
            rw [key_cons]; simp
          have el : (pre ++ UInt8.ofNat a.length :: a).length = pre.length + a.length + 1 := by simp; omega
          rw [ee, el] at ih
          rw [ih]
          rw [if_pos ⟨h1.1, by omega, hdig, by omega⟩]
          simp only [Option.bind_eq_bind, Option.bind_some]
          cases hq : quads n q with
          | none => rfl
          | some v =>
            obtain ⟨vs, r⟩ := v
            simp only [Option.bind_some, List.map_cons, List.append_assoc, List.singleton_append]
            congr 1
            rw [encName_cons_length]
            omega
      · rw [if_neg hdig]
        simp [hdig]

theorem quads_dotted : ∀ q : Name, dottedQuad q = match quads 4 q with
    | some (vs, []) => some vs
    | _ => none
  | [] => rfl
  | [_] => by simp only [quads, dottedQuad]; cases byteLabel _ <;> rfl
  | [_, _] => by simp only [quads, dottedQuad]; cases byteLabel _ <;> first | rfl | (cases byteLabel _ <;> rfl)
  | [a, b, c] => by
    simp only [quads, dottedQuad]
    cases byteLabel a <;> cases byteLabel b <;> cases byteLabel c <;> rfl
  | [a, b, c, d] => by
    simp only [quads, dottedQuad]
    cases byteLabel a <;> cases byteLabel b <;> cases byteLabel c <;> cases byteLabel d <;> rfl
  | a :: b :: c :: d :: e :: r => by
    simp only [quads, dottedQuad]
    cases byteLabel a <;> cases byteLabel b <;> cases byteLabel c <;> cases byteLabel d <;> rfl

theorem quads_suffix : ∀ (n : Nat) (q r : Name) (vs : List Nat), quads n q = some (vs, r) →
    ∃ p, q = p ++ r ∧ p.length = n
  | 0, q, r, vs, h => by
    unfold quads at h
    cases h
    exact ⟨[], rfl, rfl⟩
  | n + 1, [], r, vs, h => by cases h
  | n + 1, a :: q, r, vs, h => by
    unfold quads at h
    cases hb : byteLabel a with
    | none => rw [hb] at h; cases h
    | some v =>
      rw [hb] at h
      cases hq : quads n q with
      | none => rw [hq] at h; cases h
      | some w =>
        obtain ⟨ws, r'⟩ := w
        rw [hq] at h
        cases h
        obtain ⟨p, hp, hl⟩ := quads_suffix n q _ ws hq
        exact ⟨a :: p, by rw [hp]; rfl, by simp [hl]⟩

/-- The reply for names that look like an address. -/
theorem ddipCheck_spec {q : Name} (hf : LabelsOk q) (id : Nat) :
    ddipCheck (ρ := ρ) id (key q 1) = match dottedQuad q with
      | none => none
      | some vs => some (if 0 < id ∧ id < 65535 then .ddip (vs.map UInt8.ofNat) else .error 2 true) := by
  unfold ddipCheck
  rw [getRtype_key q 1 (by omega)]
  simp only [ne_eq, not_true_eq_false, false_and, if_false]
  have hl := ddipLoop_spec 1 4 q [] [] hf
  rw [List.nil_append] at hl
  simp only [List.length_nil, List.nil_append, Nat.zero_add] at hl
  rw [hl, quads_dotted q]
  cases hq : quads 4 q with
  | none => simp
  | some w =>
    obtain ⟨vs, r⟩ := w
    obtain ⟨p, hp, hpl⟩ := quads_suffix 4 q r vs hq
    have h4 : 4 ≤ q.length := by rw [hp, List.length_append]; omega
    have h9 := Fits.labels hf
    rw [if_neg (by rw [key_length]; omega)]
    simp only
    have e : (key q 1).getD ((encName q).length - (encName r).length) 0 = (key r 1).getD 0 0 := by
      have h1 : encName q = encLabels p ++ encName r := by
        rw [hp]; unfold encName; rw [encLabels_append, List.append_assoc]
      have h2 : (encName q).length - (encName r).length = (encLabels p).length := by
        rw [h1, List.length_append]; omega
      rw [h2]
      unfold key
      rw [h1, List.append_assoc]
      simp only [List.getD_eq_getElem?_getD]
      rw [List.getElem?_append_right (by omega)]
      simp
    rw [e]
    cases r with
    | nil =>
      have : (key [] 1).getD 0 0 = 0 := rfl
      rw [if_neg (by rw [this]; simp)]
      split <;> rfl
    | cons a r =>
      have ha : LabelsOk (a :: r) := by
        intro x hx
        exact hf x (by rw [hp]; exact List.mem_append_right _ hx)
      have h1 := ha.head
      have hff := len_facts ⟨a.length, by omega⟩ (by simp; intro e; simp [e] at h1)
      rw [if_pos]
      rw [key_cons]
      exact hff.2.2.1

theorem ddipCheck_other {q : Name} {t : Nat} (ht : t < 65536) (h1 : t ≠ 1) (h2 : t ≠ 255) (id : Nat) :
    ddipCheck (ρ := ρ) id (key q t) = none := by
  unfold ddipCheck
  rw [getRtype_key q t ht]
  simp [h1, h2]

end Lookup
end Mara
