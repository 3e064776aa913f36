import Verif.Mara.LinkModel
import Verif.Mara.BigHashProps
import Mathlib.Data.Fintype.Card
/-!
# Lemmas: what `add_an` makes of the table
-/

namespace Mara
namespace Big

open Dw (Res)
open Lookup (getRtype changeRtype u16)
open Spec

/-! ## Names that are dotted quads -/

/-- Labels one after another. -/
def labels (ls : List (List UInt8)) : List UInt8 := ls.flatMap fun l => UInt8.ofNat l.length :: l

/-- The bytes begin with a name of four labels of one to three digits (the root label may be missing at
the end). -/
def Quad (d : List UInt8) : Prop :=
  ∃ ls : List (List UInt8), ls.length = 4 ∧ (∀ l ∈ ls, 1 ≤ l.length ∧ l.length ≤ 3 ∧ ∀ x ∈ l, 48 ≤ x ∧ x ≤ 57) ∧ labels ls ++ [0] <+: d ++ [0]

theorem ddipValue_digits : ∀ (l : List UInt8) (v w : Nat), Lookup.ddipValue l v = some w → ∀ x ∈ l, 48 ≤ x ∧ x ≤ 57
  | [], _, _, _, x, hx => by cases hx
  | y :: l, v, w, h, x, hx => by
    unfold Lookup.ddipValue at h
    split at h
    · cases h
    · rename_i hy
      rcases List.mem_cons.1 hx with rfl | hx
      · have h1 : ¬ x > 57 := fun h => hy (.inl h)
        have h2 : ¬ x < 48 := fun h => hy (.inr h)
        exact ⟨UInt8.not_lt.1 h2, UInt8.not_lt.1 h1⟩
      · exact ddipValue_digits l _ _ h x hx

theorem ddipLoop_yes (q : List UInt8) : ∀ (n lenl : Nat) (ip ip' : List UInt8) (e : Nat), Lookup.ddipLoop q n lenl ip = .yes ip' e →
    ∃ ls : List (List UInt8), ls.length = n ∧ (∀ l ∈ ls, 1 ≤ l.length ∧ l.length ≤ 3 ∧ ∀ x ∈ l, 48 ≤ x ∧ x ≤ 57) ∧ labels ls <+: q.drop lenl ∧
      e = lenl + (labels ls).length
  | 0, lenl, ip, ip', e, h => by
    unfold Lookup.ddipLoop at h
    cases h
    exact ⟨[], rfl, by simp, by simp [labels], by simp [labels]⟩
  | n + 1, lenl, ip, ip', e, h => by
    unfold Lookup.ddipLoop at h
    dsimp only at h
    split at h
    · cases h
    · rename_i hl
      split at h
      · cases h
      · rename_i hfit
        split at h
        · cases h
        · rename_i v hv
          split at h
          · cases h
          · obtain ⟨ls, h1, h2, h3, h4⟩ := ddipLoop_yes q n _ _ _ _ h
            generalize hc : q.getD lenl 0 = c at *
            have hlt : lenl < q.length := by omega
            have hq : q.drop lenl = c :: q.drop (lenl + 1) := by
              rw [List.drop_eq_getElem_cons hlt]
              congr 1
              rw [← hc, List.getD_eq_getElem?_getD, List.getElem?_eq_getElem hlt]
              rfl
            have hlen : ((q.drop (lenl + 1)).take c.toNat).length = c.toNat := by
              rw [List.length_take, List.length_drop]; omega
            have hc1 : 1 ≤ c.toNat := by
              have : ¬ c < 1 := fun h => hl (.inl h)
              have := UInt8.not_lt.1 this
              exact this
            have hc3 : c.toNat ≤ 3 := by
              have : ¬ c > 3 := fun h => hl (.inr h)
              have := UInt8.not_lt.1 this
              exact this
            refine ⟨(q.drop (lenl + 1)).take c.toNat :: ls, by simp [h1], ?_, ?_, ?_⟩
            · intro l hl'
              rcases List.mem_cons.1 hl' with rfl | hl'
              · exact ⟨by omega, by omega, ddipValue_digits _ _ _ hv⟩
              · exact h2 l hl'
            · rw [hq]
              unfold labels
              rw [List.flatMap_cons, hlen, show UInt8.ofNat c.toNat = c by simp, List.cons_append]
              rw [List.prefix_cons_inj]
              conv => rhs; rw [← List.take_append_drop c.toNat (q.drop (lenl + 1))]
              rw [List.prefix_append_right_inj, List.drop_drop]
              have : lenl + 1 + c.toNat = lenl + c.toNat + 1 := by omega
              rw [this]
              exact h3
            · unfold labels at h4 ⊢
              rw [List.flatMap_cons, List.length_append, List.length_cons, hlen, h4]
              omega

theorem labels_zero {ls : List (List UInt8)} (h : ∀ l ∈ ls, 1 ≤ l.length ∧ l.length ≤ 3 ∧ ∀ x ∈ l, 48 ≤ x ∧ x ≤ 57) : (0 : UInt8) ∉ labels ls := by
  intro h0
  unfold labels at h0
  rw [List.mem_flatMap] at h0
  obtain ⟨l, hl, h0⟩ := h0
  obtain ⟨h1, h2, h3⟩ := h l hl
  rcases List.mem_cons.1 h0 with h0 | h0
  · have := congrArg UInt8.toNat h0
    rw [UInt8.toNat_ofNat'] at this
    simp at this
    omega
  · exact absurd (h3 0 h0).1 (by decide)

/-- No record is made for a name that is not a dotted quad. -/
theorem makeDdip_no (s : Store) {d : List UInt8} (h : ¬ Quad d) : makeDdip s (d ++ [0, 1]) = .ok (false, s) := by
  unfold makeDdip
  split
  · rfl
  · split
    · rfl
    · split
      · rfl
      · rfl
      · rename_i ip e hy
        split
        · rfl
        · rename_i hz
          exfalso
          obtain ⟨ls, h1, h2, h3, h4⟩ := ddipLoop_yes _ _ _ _ _ _ hy
          rw [List.drop_zero] at h3
          rw [Nat.zero_add] at h4
          apply h
          refine ⟨ls, h1, h2, ?_⟩
          have hle : (labels ls).length ≤ d.length := by
            by_contra hlt
            obtain ⟨r, hr⟩ := h3
            have : (labels ls)[d.length]? = some 0 := by
              have := congrArg (·[d.length]?) hr
              rw [List.getElem?_append_left (by omega), List.getElem?_append_right (Nat.le_refl _), Nat.sub_self] at this
              exact this
            exact labels_zero h2 (List.mem_of_getElem? this)
          obtain ⟨r, rfl⟩ : labels ls <+: d := List.prefix_of_prefix_length_le h3 (List.prefix_append _ _) hle
          rw [List.append_assoc, List.prefix_append_right_inj]
          cases r with
          | nil => exact List.prefix_rfl
          | cons x r =>
            have hx : x = 0 := by
              have : ¬ (labels ls ++ x :: r ++ [0, 1]).getD e 0 ≠ 0 := hz
              rw [h4, List.getD_eq_getElem?_getD] at this
              simpa using this
            rw [hx]
            exact ⟨r ++ [0], rfl⟩

/-! ## One record -/

/-- The host named in a record. -/
def hostOf (t : Nat) (d : List UInt8) : List UInt8 := if t = 15 then d.drop 2 else d

theorem hostQuery_eq (t : Nat) (d : List UInt8) :
    hostQuery t d = if hostOf t d = [] ∨ (hostOf t d).length ≥ 254 then none else some (hostOf t d ++ [0, 1]) := by
  unfold hostQuery hostOf L.substr
  dsimp only
  generalize hst : (if t = 15 then 2 else 0) = st
  have hd : (if t = 15 then d.drop 2 else d) = d.drop st := by rw [← hst]; split <;> rfl
  rw [hd]
  have hl : (d.drop st).length = d.length - st := List.length_drop
  by_cases h0 : st < d.length
  · by_cases h1 : d.length - st < 256
    · rw [if_pos ⟨h0, by omega, h1⟩]
      dsimp only
      rw [List.take_of_length_le (by omega), hl]
      by_cases h2 : d.length - st + 2 ≥ 256
      · rw [if_pos h2, if_pos (.inr (by omega))]
      · rw [if_neg h2, if_neg]
        rintro (h | h)
        · rw [← List.length_eq_zero_iff] at h; omega
        · omega
    · rw [if_neg (fun h => h1 h.2.2), if_pos (.inr (by omega))]
  · rw [if_neg (fun h => h0 h.1), if_pos (.inl (List.drop_of_length_le (by omega)))]

theorem changeRtype_app (b : List UInt8) (hb : b ≠ []) (x y : UInt8) {t : Nat} (ht : t < 65536) : changeRtype (b ++ [x, y]) t = some (b ++ u16 t) := by
  unfold changeRtype
  have hl : (b ++ [x, y]).length = b.length + 2 := by simp
  have : 1 ≤ b.length := List.length_pos_iff.2 hb
  rw [hl, if_neg (by omega), if_neg (by omega), Nat.add_sub_cancel, List.take_left]
  rfl

theorem own_none {s : Store} {A : Key → Option Ent} {own : Key → List Nat} {L : List UInt8 → List (Nat × Nat)}
    (inv : Inv s A own L) {b : List UInt8} (h : b = [] ∨ b.length ≥ 254) (t : Nat) : own (b, t) = [] := by
  by_contra hn
  have hg := inv.good _ hn
  have h1 := hg.pos
  have h2 := hg.fits
  simp only at h1 h2
  rcases h with rfl | h
  · simp at h1
  · omega

/-- The pointers of a record after it has been looked at under a key of type `t`. -/
def seen (v6 : Bool) (own : Key → List Nat) (t : Nat) (d : List UInt8) (k : Link) : Link :=
  { k with ip := (own (hostOf t d, 1)).head?.or k.ip, ip6 := if v6 then (own (hostOf t d, 28)).head?.or k.ip6 else k.ip6 }

/-- Other pointers for one record. -/
def put1 (f : Nat → Link) (i : Nat) (k : Link) : Nat → Link := fun j => if j = i then k else f j

theorem linkHost_eq {s : Store} {A : Key → Option Ent} {own : Key → List Nat} {L : List UInt8 → List (Nat × Nat)}
    (inv : Inv s A own L) (v6 : Bool) (t i : Nat) (d : List UInt8) (f : Nat → Link) (hq : ¬ Quad (hostOf t d)) :
    linkHost v6 t i d ⟨s, f⟩ = .ok ⟨s, put1 f i (seen v6 own t d (f i))⟩ := by
  unfold linkHost
  rw [hostQuery_eq]
  by_cases h0 : hostOf t d = [] ∨ (hostOf t d).length ≥ 254
  · rw [if_pos h0]
    dsimp only
    congr 2
    unfold put1 seen
    rw [own_none inv h0, own_none inv h0]
    funext j
    split
    · rename_i e; rw [e]; cases v6 <;> rfl
    · rfl
  · rw [if_neg h0]
    have hne : hostOf t d ≠ [] := fun h => h0 (.inl h)
    dsimp only
    rw [changeRtype_app _ hne _ _ (by decide)]
    dsimp only
    have hd1 := inv.dict (hostOf t d, 1) (by simp) (by simp)
    have hd28 := inv.dict (hostOf t d, 28) (by simp) (by simp)
    unfold enc at hd1 hd28
    dsimp only at hd1 hd28
    have six : ∀ f : Nat → Link, linkSix v6 i (hostOf t d ++ u16 1) ⟨s, f⟩ =
        ⟨s, put1 f i { f i with ip6 := if v6 then (own (hostOf t d, 28)).head?.or (f i).ip6 else (f i).ip6 }⟩ := by
      intro f
      unfold linkSix
      cases v6 with
      | false =>
        rw [if_pos rfl]
        congr 1
        unfold put1
        funext j
        split
        · rename_i e; rw [e]; rfl
        · rfl
      | true =>
        rw [if_neg (by decide)]
        have : changeRtype (hostOf t d ++ u16 1) 28 = some (hostOf t d ++ u16 28) := changeRtype_app _ hne _ _ (by decide)
        rw [this]
        dsimp only
        rw [hd28]
        cases hown : (own (hostOf t d, 28)).head? with
        | none =>
          dsimp only [Option.map]
          congr 1
          unfold put1
          funext j
          split
          · rename_i e; rw [e]; rfl
          · rfl
        | some a =>
          dsimp only [Option.map]
          unfold Linked.setIp6 put1
          congr 1
    rw [hd1]
    cases hown : (own (hostOf t d, 1)).head? with
    | some a =>
      dsimp only [Option.map]
      unfold Linked.setIp
      rw [six]
      congr 2
      unfold put1 seen
      funext j
      rw [hown]
      split
      · rename_i e; simp
      · rename_i e; simp [e]
    | none =>
      dsimp only [Option.map]
      have : makeDdip s (hostOf t d ++ u16 1) = .ok (false, s) := makeDdip_no s hq
      rw [this]
      dsimp only
      rw [six]
      congr 2
      unfold put1 seen
      funext j
      rw [hown]
      rfl

/-! ## A chain -/

/-- The places of a chain, in order. -/
def Run (s : Store) : Option Nat → List Nat → Prop
  | none, [] => True
  | some i, j :: l => i = j ∧ ∃ p, s.heap[i]? = some p ∧ p.live = true ∧ Run s p.next l
  | _, _ => False

theorem Path.run {s : Store} {kq : List UInt8} {t : Nat} {a : Bool} {tl : Option Nat} {m : List Nat} (hm : Run s tl m) :
    ∀ {l : List Nat} {rs : List Rec}, Path s.heap kq t a l rs tl → Run s l.head? (l ++ m)
  | [], _, h => absurd rfl h.ne
  | [i], [], h => h.elim
  | [i], [r], h => ⟨rfl, _, h, rfl, hm⟩
  | [i], _ :: _ :: _, h => h.elim
  | _ :: _ :: _, [], h => h.elim
  | i :: j :: l, r :: rs, h => ⟨rfl, _, h.1, rfl, Path.run hm h.2⟩

section
variable {s : Store} {A : Key → Option Ent} {own : Key → List Nat} {L : List UInt8 → List (Nat × Nat)}

/-- The name servers that follow the records of a key. -/
def after (own : Key → List Nat) (e : Ent) : List Nat :=
  match e.ns with
  | some z => own (z, 2)
  | none => []

theorem Inv.run (inv : Inv s A own L) {k : Key} {e : Ent} (he : A k = some e) : Run s (own k).head? (own k ++ after own e) := by
  refine Path.run ?_ (inv.path k e he)
  unfold after tailOf
  cases hns : e.ns with
  | none => trivial
  | some z =>
    obtain ⟨hz, _⟩ := inv.ns k e z he hns
    dsimp only [Option.bind]
    have : A (z, 2) ≠ none := fun h => hz ((inv.none_iff _).1 h)
    obtain ⟨e2, he2⟩ := Option.ne_none_iff_exists'.1 this
    have hn2 : e2.ns = none := by
      cases h : e2.ns with
      | none => rfl
      | some z' => exact absurd rfl (inv.ns (z, 2) e2 z' he2 h).2
    have hp := inv.path _ _ he2
    rw [show tailOf own e2.ns = none by rw [hn2]; rfl] at hp
    have := Path.run (show Run s none [] from trivial) hp
    rwa [List.append_nil] at this

theorem ends {e : Ent} : ∀ j ∈ after own e, ∃ z, e.ns = some z ∧ j ∈ own (z, 2) := by
  intro j hj
  unfold after at hj
  cases hns : e.ns with
  | none => rw [hns] at hj; cases hj
  | some z => rw [hns] at hj; exact ⟨z, rfl, hj⟩

theorem Inv.apart (inv : Inv s A own L) {k : Key} {e : Ent} (he : A k = some e) : (own k ++ after own e).Nodup := by
  rw [List.nodup_append]
  refine ⟨inv.nodup k, ?_, ?_⟩
  · unfold after
    cases e.ns with
    | none => exact List.nodup_nil
    | some z => exact inv.nodup _
  · intro a ha b hb hab
    obtain ⟨z, hz, hb⟩ := ends b hb
    subst hab
    have := inv.disj _ _ _ ha hb
    exact (inv.ns k e z he hz).2 (by rw [this])

theorem Run.lt : ∀ {l : List Nat} {i : Option Nat}, Run s i l → ∀ j ∈ l, j < s.heap.length
  | [], _, _, _, hj => by cases hj
  | _ :: _, none, h, _, _ => h.elim
  | j :: l, some i, ⟨hij, p, hp, _, hr⟩, x, hx => by
    subst hij
    rcases List.mem_cons.1 hx with rfl | hx
    · exact (List.getElem?_eq_some_iff.1 hp).1
    · exact Run.lt hr x hx

theorem Run.short {l : List Nat} {i : Option Nat} (h : Run s i l) (hn : l.Nodup) : l.length ≤ s.heap.length := by
  have := List.Nodup.length_le_card (α := Fin s.heap.length) (l := l.pmap (fun j hj => (⟨j, hj⟩ : Fin s.heap.length)) h.lt)
    (hn.pmap (by intro a _ b _ h; exact Fin.mk.inj h))
  simpa using this

/-- The data of the record at a place. -/
def dataAt (s : Store) (j : Nat) : List UInt8 := ((s.heap[j]?).map (·.data)).getD []

theorem dataAt_some {j : Nat} {p : Node} (h : s.heap[j]? = some p) : dataAt s j = p.data := by
  unfold dataAt; rw [h]; rfl

theorem linkHosts_eq (inv : Inv s A own L) (v6 : Bool) (t : Nat) : ∀ (l : List Nat) (n i : Nat) (f : Nat → Link),
    Run s (some i) l → l.length ≤ n → l.Nodup → (∀ j ∈ l, ¬ Quad (hostOf t (dataAt s j))) →
    linkHosts v6 t n i ⟨s, f⟩ = .ok ⟨s, fun j => if j ∈ l then seen v6 own t (dataAt s j) (f j) else f j⟩
  | [], n, i, f, hr, _, _, _ => hr.elim
  | j :: l, 0, i, f, _, hn, _, _ => by simp at hn
  | j :: l, n + 1, i, f, ⟨hij, p, hp, hlive, hr⟩, hn, hd, hq => by
    subst hij
    unfold linkHosts
    have hder : s.deref i = .ok p := deref_some hp hlive
    have hdat := dataAt_some hp
    have h1 := linkHost_eq inv v6 t i p.data f (by rw [← hdat]; exact hq i (by simp))
    rw [hder, Dw.Res.ok_bind, h1, Dw.Res.ok_bind]
    dsimp only
    rw [hder, Dw.Res.ok_bind]
    obtain ⟨hnot, hd⟩ := List.nodup_cons.1 hd
    cases hnx : p.next with
    | none =>
      rw [hnx] at hr
      cases l with
      | cons _ _ => exact hr.elim
      | nil =>
        dsimp only
        congr 2
        funext j
        unfold put1
        by_cases hj : j = i
        · subst hj; simp [hdat]
        · simp [hj]
    | some m =>
      rw [hnx] at hr
      dsimp only
      rw [linkHosts_eq inv v6 t l n m _ hr (by simpa using hn) hd (fun j hj => hq j (List.mem_cons_of_mem _ hj))]
      congr 2
      funext j
      unfold put1
      by_cases hj : j = i
      · subst hj; simp [hnot, hdat]
      · simp [hj]

/-! ## Aliases -/

/-- The pointer of an alias. -/
def aliasOf (L : List UInt8 → List (Nat × Nat)) (d : List UInt8) : Option (List UInt8) := if L d = [] then none else some (d ++ u16 255)

theorem list_none (inv : Inv s A own L) {b : List UInt8} (h : b = [] ∨ b.length ≥ 254) : L b = [] := by
  rw [List.eq_nil_iff_forall_not_mem]
  rintro ⟨t, i⟩ hm
  have := (inv.list b t i).1 hm
  rw [own_none inv h] at this
  cases this

/-- The pointers of a CNAME record after it has been looked at. -/
def led (L : List UInt8 → List (Nat × Nat)) (d : List UInt8) (k : Link) : Link := { k with list := (aliasOf L d).or k.list }

theorem linkAlias_eq (inv : Inv s A own L) (i : Nat) {d : List UInt8} (h : ¬ (d = [] ∨ d.length ≥ 254)) (f : Nat → Link) :
    linkAlias i (d ++ [0, 1]) ⟨s, f⟩ = ⟨s, put1 f i (led L d (f i))⟩ := by
  unfold linkAlias
  rw [changeRtype_app _ (fun h0 => h (.inl h0)) _ _ (by decide)]
  dsimp only
  have := inv.any d
  unfold enc at this
  dsimp only at this
  rw [this]
  unfold led aliasOf
  by_cases hL : L d = []
  · rw [if_pos hL, if_pos hL]
    dsimp only
    congr 1
    unfold put1
    funext j
    split
    · rename_i e; rw [e]; rfl
    · rfl
  · rw [if_neg hL, if_neg hL]
    rfl

/-- A chain of CNAME records, with name servers after it. -/
theorem linkAliases_eq (inv : Inv s A own L) : ∀ (l m : List Nat) (n i : Nat) (f : Nat → Link),
    Run s (some i) (l ++ m) → (l ++ m).length ≤ n → l.Nodup → (∀ j ∈ l, ∀ p, s.heap[j]? = some p → p.type = 5) →
    (∀ j ∈ m, ∀ p, s.heap[j]? = some p → p.type ≠ 5) →
    linkAliases n i ⟨s, f⟩ = .ok ⟨s, fun j => if j ∈ l then led L (dataAt s j) (f j) else f j⟩
  | [], [], n, i, f, hr, _, _, _, _ => hr.elim
  | [], j :: m, 0, i, f, _, hn, _, _, _ => by simp at hn
  | [], j :: m, n + 1, i, f, ⟨hij, p, hp, hlive, hr⟩, hn, _, _, hm => by
    subst hij
    unfold linkAliases
    have hder : s.deref i = .ok p := deref_some hp hlive
    rw [hder, Dw.Res.ok_bind, hostQuery_eq]
    have hrest : (match p.next with
        | none => .ok ⟨s, f⟩
        | some j => linkAliases n j ⟨s, f⟩ : Res Linked) = .ok ⟨s, f⟩ := by
      cases hnx : p.next with
      | none => rfl
      | some x =>
        dsimp only
        rw [hnx] at hr
        rw [linkAliases_eq inv [] m n x f hr (by simpa using hn) List.nodup_nil (by simp) (fun j hj => hm j (List.mem_cons_of_mem _ hj))]
        simp
    have hty := hm i (by simp) p hp
    dsimp only
    by_cases h0 : hostOf 5 p.data = [] ∨ (hostOf 5 p.data).length ≥ 254
    · rw [if_pos h0]
      dsimp only
      simp only [List.not_mem_nil, if_false]
      exact hrest
    · rw [if_neg h0]
      dsimp only
      rw [if_pos hty]
      simp
  | j :: l, m, 0, i, f, _, hn, _, _, _ => by simp at hn
  | j :: l, m, n + 1, i, f, ⟨hij, p, hp, hlive, hr⟩, hn, hd, hl, hm => by
    subst hij
    unfold linkAliases
    have hder : s.deref i = .ok p := deref_some hp hlive
    have hdat := dataAt_some hp
    rw [hder, Dw.Res.ok_bind, hostQuery_eq]
    obtain ⟨hnot, hd⟩ := List.nodup_cons.1 hd
    have hh : hostOf 5 p.data = p.data := rfl
    have hrest : ∀ g : Nat → Link, (match p.next with
        | none => .ok ⟨s, g⟩
        | some j => linkAliases n j ⟨s, g⟩ : Res Linked) = .ok ⟨s, fun j => if j ∈ l then led L (dataAt s j) (g j) else g j⟩ := by
      intro g
      cases hnx : p.next with
      | none =>
        rw [hnx] at hr
        cases l with
        | nil => simp
        | cons _ _ => exact hr.elim
      | some x =>
        dsimp only
        rw [hnx] at hr
        exact linkAliases_eq inv l m n x g hr (by simpa using hn) hd (fun j hj => hl j (List.mem_cons_of_mem _ hj)) hm
    rw [hh]
    by_cases h0 : p.data = [] ∨ p.data.length ≥ 254
    · rw [if_pos h0]
      dsimp only
      refine (hrest f).trans ?_
      congr 2
      funext j
      by_cases hj : j = i
      · subst hj
        simp only [hnot, if_false, List.mem_cons, true_or, if_true]
        unfold led aliasOf
        rw [hdat, list_none inv h0]
        rfl
      · simp [hj]
    · rw [if_neg h0]
      dsimp only
      rw [if_neg (by rw [hl i (by simp) p hp]; decide), linkAlias_eq inv i h0]
      refine (hrest _).trans ?_
      congr 2
      funext j
      unfold put1
      by_cases hj : j = i
      · subst hj; simp [hnot, hdat]
      · simp [hj]

/-! ## All keys -/

/-- The pointers of a record of type `t` with data `d`. -/
def linkOf (v6 : Bool) (own : Key → List Nat) (L : List UInt8 → List (Nat × Nat)) (t : Nat) (d : List UInt8) : Link :=
  if t = 15 ∨ t = 2 then ⟨(own (hostOf t d, 1)).head?, if v6 then (own (hostOf t d, 28)).head? else none, none⟩
  else if t = 5 then ⟨none, none, aliasOf L d⟩
  else {}

/-- No host is a dotted quad; and what is left of the name of a name server without its first two bytes
is not the name of a host. -/
structure Hosts (s : Store) (own : Key → List Nat) : Prop where
  mx : ∀ b, ∀ j ∈ own (b, 15), ¬ Quad ((dataAt s j).drop 2)
  ns : ∀ b, ∀ j ∈ own (b, 2), ¬ Quad (dataAt s j) ∧ ¬ Quad ((dataAt s j).drop 2)
  off : ∀ b, ∀ j ∈ own (b, 2), own ((dataAt s j).drop 2, 1) = [] ∧ own ((dataAt s j).drop 2, 28) = []

/-- The pointers after the keys `V` have been visited. -/
def Known (v6 : Bool) (s : Store) (own : Key → List Nat) (L : List UInt8 → List (Nat × Nat)) (V : List (List UInt8)) (f : Nat → Link) : Prop :=
  ∀ k, ∀ j ∈ own k, f j = if enc k ∈ V then linkOf v6 own L k.2 (dataAt s j) else {}

theorem seen_known {v6 : Bool} {t : Nat} {d : List UInt8} (h : t = 15 ∨ t = 2) (c : Prop) [Decidable c] :
    seen v6 own t d (if c then linkOf v6 own L t d else {}) = linkOf v6 own L t d := by
  unfold seen linkOf
  rw [if_pos h]
  by_cases hc : c
  · rw [if_pos hc]
    cases v6 <;> simp
  · rw [if_neg hc]
    cases v6 <;> simp

theorem led_known {v6 : Bool} {d : List UInt8} (c : Prop) [Decidable c] :
    led L d (if c then linkOf v6 own L 5 d else {}) = linkOf v6 own L 5 d := by
  unfold led linkOf
  by_cases hc : c
  · simp [hc]
  · simp [hc]

theorem rtype_enc {q : List UInt8} {t : Nat} (h : getRtype q = some t) (hl : 3 ≤ q.length) : ∃ b, q = enc (b, t) ∧ t < 65536 := by
  have hlt : t < 65536 := by
    unfold getRtype at h
    split at h
    · cases h
    · injection h with h
      have h1 := (q.getD (q.length - 2) 0).toNat_lt
      have h2 := (q.getD (q.length - 1) 0).toNat_lt
      omega
  refine ⟨q.take (q.length - 2), ?_, hlt⟩
  unfold enc
  have h3 := List.take_append_drop (q.length - 2) q
  have h4 : ∃ x y, q.drop (q.length - 2) = [x, y] := by
    have : (q.drop (q.length - 2)).length = 2 := by rw [List.length_drop]; omega
    exact List.length_eq_two.1 this
  obtain ⟨x, y, hxy⟩ := h4
  rw [hxy] at h3
  dsimp only
  generalize q.take (q.length - 2) = b at *
  subst h3
  congr 1
  unfold getRtype at h
  rw [if_neg (by omega)] at h
  injection h with h
  have e1 : (b ++ [x, y]).getD ((b ++ [x, y]).length - 2) 0 = x := by simp [List.getD_eq_getElem?_getD]
  have e2 : (b ++ [x, y]).getD ((b ++ [x, y]).length - 1) 0 = y := by simp [List.getD_eq_getElem?_getD]
  rw [e1, e2] at h
  have := x.toNat_lt
  have := y.toNat_lt
  unfold u16
  rw [show t / 256 = x.toNat by omega, show UInt8.ofNat t = UInt8.ofNat y.toNat by
    apply UInt8.toNat_inj.1
    simp only [UInt8.toNat_ofNat']
    omega]
  simp

/-- One visit. -/
theorem visit_eq (inv : Inv s A own L) (hh : Hosts s own) (v6 : Bool) {q : List UInt8} (hq : (s.dict q).isSome = true)
    {V : List (List UInt8)} {f : Nat → Link} (hf : Known v6 s own L V f) :
    ∃ f', visit v6 q ⟨s, f⟩ = .ok ⟨s, f'⟩ ∧ Known v6 s own L (V ++ [q]) f' := by
  have other : (∀ k, own k ≠ [] → enc k = q → ¬ (k.2 = 15 ∨ k.2 = 2) ∧ k.2 ≠ 5) → Known v6 s own L (V ++ [q]) f := by
    intro h k j hj
    rw [hf k j hj]
    by_cases hk : enc k = q
    · obtain ⟨h1, h2⟩ := h k (List.ne_nil_of_mem hj) hk
      have : linkOf v6 own L k.2 (dataAt s j) = {} := by unfold linkOf; rw [if_neg h1, if_neg h2]
      rw [this, ite_self, ite_self]
    · simp only [List.mem_append, List.mem_singleton, hk, or_false]
  unfold visit
  cases ht : getRtype q with
  | none =>
    refine ⟨f, rfl, other ?_⟩
    intro k hk he
    have hg := inv.good k hk
    rw [← he, rtype_good hg] at ht
    cases ht
  | some t =>
    dsimp only
    have key : ∀ k, own k ≠ [] → enc k = q → k.2 = t := by
      intro k hk he
      have hg := inv.good k hk
      rw [← he, rtype_good hg] at ht
      exact Option.some.inj ht
    by_cases h1 : t = 15 ∨ t = 2
    · rw [if_pos h1]
      by_cases hk : ∃ k, own k ≠ [] ∧ enc k = q
      · obtain ⟨k, hk, rfl⟩ := hk
        have hkt := key k hk rfl
        have hg := inv.good k hk
        have hd := inv.dict k (by have := hg.small; omega) hg.kind.1
        obtain ⟨i, hi⟩ : ∃ i, (own k).head? = some i := by
          cases h : own k with
          | nil => exact absurd h hk
          | cons a l => exact ⟨a, rfl⟩
        rw [hi] at hd
        rw [hd]
        dsimp only [Option.map]
        obtain ⟨e, he⟩ := Option.ne_none_iff_exists'.1 (fun h => hk ((inv.none_iff k).1 h))
        have hrun := inv.run he
        rw [hi] at hrun
        have hnd := inv.apart he
        have hsh := hrun.short hnd
        have hown : ∀ j ∈ own k, ¬ Quad (hostOf t (dataAt s j)) := by
          intro j hj
          obtain ⟨b, t'⟩ := k
          dsimp only at hkt
          subst hkt
          rcases h1 with rfl | rfl
          · exact hh.mx b j hj
          · exact (hh.ns b j hj).1
        have hend : ∀ j ∈ after own e, t = 15 ∧ ∃ z, j ∈ own (z, 2) := by
          intro j hj
          obtain ⟨z, hz, hjz⟩ := ends j hj
          have := (inv.ns k e z he hz).2
          exact ⟨h1.resolve_right (fun h => this (by rw [hkt, h])), z, hjz⟩
        rw [linkHosts_eq inv v6 t _ _ i f hrun (by omega) hnd]
        · refine ⟨_, rfl, ?_⟩
          intro k' j hj
          dsimp only
          by_cases hkk : k' = k
          · subst hkk
            rw [if_pos (List.mem_append_left _ hj), hf k' j hj, if_pos (c := enc k' ∈ V ++ [enc k']) (by simp), ← hkt]
            exact seen_known (by rw [hkt]; exact h1) _
          · have hne : enc k' ≠ enc k := by
              intro h
              have := (inv.good k' (List.ne_nil_of_mem hj)).small
              exact hkk (enc_inj (by omega) (by have := hg.small; omega) h)
            have hnot : j ∉ own k := fun h => hkk (inv.disj _ _ _ hj h)
            have hsame : (if j ∈ own k ++ after own e then seen v6 own t (dataAt s j) (f j) else f j) = f j := by
              by_cases hm : j ∈ after own e
              · rw [if_pos (List.mem_append_right _ hm)]
                obtain ⟨h15, z, hz⟩ := hend j hm
                obtain ⟨o1, o2⟩ := hh.off z j hz
                unfold seen hostOf
                rw [h15, if_pos rfl, o1, o2]
                cases v6 <;> rfl
              · rw [if_neg (by simp [hnot, hm])]
            rw [hsame, hf k' j hj]
            simp only [List.mem_append, List.mem_singleton, hne, or_false]
        · intro j hj
          rcases List.mem_append.1 hj with hj | hj
          · exact hown j hj
          · obtain ⟨h15, z, hz⟩ := hend j hj
            rw [h15]
            exact (hh.ns z j hz).2
      · refine ⟨f, ?_, other (fun k h2 h3 => absurd ⟨k, h2, h3⟩ hk)⟩
        cases hc : s.dict q with
        | none => rfl
        | some c =>
          cases c with
          | list l => rfl
          | rr i =>
            exfalso
            have hl : 3 ≤ q.length ∨ q.length < 3 := by omega
            rcases hl with hl | hl
            · obtain ⟨b, rfl, hlt⟩ := rtype_enc ht hl
              have := inv.dict (b, t) hlt (by rcases h1 with rfl | rfl <;> simp)
              rw [hc] at this
              exact hk ⟨(b, t), (fun h => by rw [h] at this; cases this), rfl⟩
            · unfold getRtype at ht
              rw [if_pos (by omega)] at ht
              cases ht
    · rw [if_neg h1]
      by_cases h5 : t = 5
      · rw [if_pos h5]
        subst h5
        have hl : 3 ≤ q.length := by
          by_contra hl
          unfold getRtype at ht
          rw [if_pos (by omega)] at ht
          cases ht
        obtain ⟨b, rfl, hlt⟩ := rtype_enc ht hl
        have hd := inv.dict (b, 5) hlt (by simp)
        have hk : own (b, 5) ≠ [] := by
          intro h
          rw [hd, h] at hq
          cases hq
        obtain ⟨i, hi⟩ : ∃ i, (own (b, 5)).head? = some i := by
          cases h : own (b, 5) with
          | nil => exact absurd h hk
          | cons a l => exact ⟨a, rfl⟩
        rw [hi] at hd
        rw [hd]
        dsimp only [Option.map]
        obtain ⟨e, he⟩ := Option.ne_none_iff_exists'.1 (fun h => hk ((inv.none_iff _).1 h))
        have hrun := inv.run he
        rw [hi] at hrun
        have hnd := inv.apart he
        have hsh := hrun.short hnd
        rw [linkAliases_eq inv _ _ _ i f hrun (by omega) (inv.nodup _)]
        · refine ⟨_, rfl, ?_⟩
          intro k' j hj
          dsimp only
          by_cases hkk : k' = (b, 5)
          · subst hkk
            rw [if_pos hj, hf _ j hj, if_pos (c := enc (b, 5) ∈ V ++ [enc (b, 5)]) (by simp)]
            exact led_known _
          · have hne : enc k' ≠ enc (b, 5) := by
              intro h
              have := (inv.good k' (List.ne_nil_of_mem hj)).small
              exact hkk (enc_inj (by omega) (by simp) h)
            have hnot : j ∉ own (b, 5) := fun h => hkk (inv.disj _ _ _ hj h)
            rw [if_neg hnot, hf k' j hj]
            simp only [List.mem_append, List.mem_singleton, hne, or_false]
        · intro j hj p hp
          obtain ⟨p', hp', _, hty, _⟩ := (inv.path _ _ he).node j hj
          rw [hp] at hp'
          cases hp'
          exact hty
        · intro j hj p hp
          obtain ⟨z, hz, hjz⟩ := ends j hj
          obtain ⟨e2, he2⟩ := Option.ne_none_iff_exists'.1 (fun h => (List.ne_nil_of_mem hjz) ((inv.none_iff _).1 h))
          obtain ⟨p', hp', _, hty, _⟩ := (inv.path _ _ he2).node j hjz
          rw [hp] at hp'
          cases hp'
          rw [hty]
          simp
      · rw [if_neg h5]
        refine ⟨f, rfl, other ?_⟩
        intro k h2 h3
        have := key k h2 h3
        rw [this]
        exact ⟨h1, h5⟩

theorem addAn_known (inv : Inv s A own L) (hh : Hosts s own) (v6 : Bool) : ∀ (ks V : List (List UInt8)) (f : Nat → Link),
    (∀ q ∈ ks, (s.dict q).isSome = true) → Known v6 s own L V f →
    ∃ f', addAn v6 ks ⟨s, f⟩ = .ok ⟨s, f'⟩ ∧ Known v6 s own L (V ++ ks) f'
  | [], V, f, _, hf => ⟨f, rfl, by rwa [List.append_nil]⟩
  | q :: ks, V, f, hk, hf => by
    obtain ⟨f1, h1, hf1⟩ := visit_eq inv hh v6 (hk q (by simp)) hf
    obtain ⟨f2, h2, hf2⟩ := addAn_known inv hh v6 ks _ f1 (fun x hx => hk x (List.mem_cons_of_mem _ hx)) hf1
    refine ⟨f2, ?_, by simpa using hf2⟩
    unfold addAn
    rw [h1, Dw.Res.ok_bind]
    exact h2

/-- The pointers after all keys have been visited, in any order. -/
theorem addAn_eq (inv : Inv s A own L) (hh : Hosts s own) (v6 : Bool) {ks : List (List UInt8)} (hks : ∀ q, q ∈ ks ↔ (s.dict q).isSome = true) :
    ∃ f, addAn v6 ks ⟨s, fun _ => {}⟩ = .ok ⟨s, f⟩ ∧ ∀ k, ∀ j ∈ own k, f j = linkOf v6 own L k.2 (dataAt s j) := by
  obtain ⟨f, h1, h2⟩ := addAn_known inv hh v6 ks [] (fun _ => {}) (fun q hq => (hks q).1 hq) (fun k j _ => by simp)
  refine ⟨f, h1, ?_⟩
  intro k j hj
  rw [h2 k j hj, if_pos]
  have hk := List.ne_nil_of_mem hj
  have hg := inv.good k hk
  rw [List.nil_append, hks, inv.dict k (by have := hg.small; omega) hg.kind.1]
  cases h : own k with
  | nil => exact absurd h hk
  | cons a l => rfl

end

end Big
end Mara
