import Verif.Deadwood.GlueAsk
import Verif.Deadwood.TrustExamples
/-!
# Properties: names in a list of servers, near and far
-/

namespace Dw
namespace Trust
open DwStr Spec Ns Dissect

theorem dnameLabel_near (raw : List UInt8) (cap : Nat) (hcap : 260 ≤ cap) :
    ∀ (l : List UInt8) (offset : Nat) (acc rest : List UInt8), raw.drop (offset + 1) = l ++ rest →
    offset + l.length < 254 → acc.length + l.length ≤ 256 → (∀ x ∈ l, 32 ≤ x.toNat) →
    dnameLabel raw 256 cap l.length offset acc = .ok (offset + l.length, acc ++ l) := by
  intro l
  induction l with
  | nil => intro offset acc rest _ _ _ _; simp [dnameLabel]
  | cons x l ih =>
    intro offset acc rest h h1 h2 h3
    simp only [List.length_cons] at h1 h2
    simp only [List.length_cons, dnameLabel]
    rw [if_neg (by omega), if_neg (by omega)]
    have hx : raw[offset + 1]? = some x := by
      have := congrArg (·[0]?) h
      simpa using this
    have hp : rawPeek raw (offset + 1) = .ok x := by unfold rawPeek; rw [hx]
    rw [hp]
    simp only [Res.ok_bind]
    have h32 := h3 x (by simp)
    rw [if_neg (by rw [UInt8.lt_iff_toNat_lt]; show ¬ x.toNat < 32; omega)]
    have hr : raw.drop (offset + 1 + 1) = l ++ rest := by
      rw [← List.drop_drop, h]; rfl
    rw [ih (offset + 1) (acc ++ [x]) rest hr (by omega) (by simp; omega) (fun y hy => h3 y (by simp [hy]))]
    simp only [List.append_assoc, List.singleton_append]
    congr 2
    omega

theorem dnameLoop_near (raw : List UInt8) (cap : Nat) (hcap : 260 ≤ cap) :
    ∀ (ls : List (List UInt8)) (n offset : Nat) (acc rest : List UInt8), ls.length < n → n ≤ 400 → LabelsOk ls →
    raw.drop offset = encName ls ++ rest → offset + (encName ls).length ≤ 254 → acc.length + (encName ls).length ≤ 255 →
    (∀ l ∈ ls, ∀ x ∈ l, 32 ≤ x.toNat) →
    dnameLoop raw 256 cap n offset acc = .ok (acc ++ encName ls, 400 - n + ls.length) := by
  intro ls
  induction ls with
  | nil =>
    intro n offset acc rest hn hn4 _ h h1 h2 _
    obtain ⟨n, rfl⟩ : ∃ k, n = k + 1 := ⟨n - 1, by simp at hn; omega⟩
    have he : (encName []).length = 1 := by simp [encName, encLabels]
    rw [he] at h1 h2
    simp only [dnameLoop]
    rw [if_neg (by omega), if_neg (by omega)]
    have hx : raw[offset]? = some 0 := by
      have := congrArg (·[0]?) h
      simpa [encName, encLabels] using this
    have hp : rawPeek raw offset = .ok 0 := by unfold rawPeek; rw [hx]
    rw [hp]
    simp [encName, encLabels]
  | cons l ls ih =>
    intro n offset acc rest hn hn4 hok h h1 h2 h3
    obtain ⟨n, rfl⟩ : ∃ k, n = k + 1 := ⟨n - 1, by simp at hn; omega⟩
    have hl := hok l (by simp)
    have he : encName (l :: ls) = UInt8.ofNat l.length :: (l ++ encName ls) := by simp [encName, encLabels]
    have hel : (encName (l :: ls)).length = 1 + l.length + (encName ls).length := by rw [he]; simp; omega
    have hpos : 0 < (encName ls).length := by simp [encName]
    simp only [dnameLoop]
    rw [if_neg (by omega), if_neg (by omega)]
    have hx : raw[offset]? = some (UInt8.ofNat l.length) := by
      have := congrArg (·[0]?) h
      simpa [he] using this
    have hp : rawPeek raw offset = .ok (UInt8.ofNat l.length) := by unfold rawPeek; rw [hx]
    have hto : (UInt8.ofNat l.length).toNat = l.length := by rw [ofNat8_toNat]; omega
    have hr : raw.drop (offset + 1) = l ++ (encName ls ++ rest) := by
      rw [← List.drop_drop, h, he]; simp
    rw [hp]
    simp only [Res.ok_bind]
    rw [if_neg (by rw [gt_iff_lt, UInt8.lt_iff_toNat_lt, hto]; show ¬ 63 < l.length; omega), if_neg (by
      intro hc
      have := congrArg UInt8.toNat hc
      rw [hto] at this
      have h0 : (0 : UInt8).toNat = 0 := rfl
      omega), hto]
    rw [dnameLabel_near raw cap hcap l offset (acc ++ [UInt8.ofNat l.length]) _ hr (by omega) (by simp; omega)
      (h3 l (by simp))]
    simp only [Res.ok_bind]
    have hr2 : raw.drop (offset + l.length + 1) = encName ls ++ rest := by
      rw [show offset + l.length + 1 = (offset + 1) + l.length by omega, ← List.drop_drop, hr]; simp
    rw [ih n (offset + l.length + 1) (acc ++ [UInt8.ofNat l.length] ++ l) rest (by simpa using hn) (by omega)
      (fun x hx => hok x (by simp [hx])) hr2 (by omega) (by simp; omega) (fun x hx => h3 x (by simp [hx])), he]
    simp only [List.append_assoc, List.singleton_append, List.length_cons, List.cons_append, List.nil_append]
    congr 2
    omega

/-- C115.  A server that is known by its name only, if the name ends within the first 251 bytes of the list and has no control
characters: its address is taken from the answer that is kept for the name, if that has one, and otherwise is asked for. -/
theorem entryName_near {cfg : Cfg} {c : List Entry} {list : DwStr} {o : Nat} (rnd : Nat) {n : List (List UInt8)}
    (hn : Spec.NameOk n) (hctl : ∀ l ∈ n, ∀ x ∈ l, 32 ≤ x.toNat) {rest : List UInt8}
    (h : list.contents.drop o = (NsHost.named n).enc ++ rest) (ho : o + (encName n).length ≤ 254) :
    (get c (encName (n.map (List.map lower)) ++ be16 (askType cfg.glueType)) = none →
      entryName cfg c list o rnd = .ok (.name (encName (n.map (List.map lower)) ++ be16 cfg.glueType))) ∧
    (∀ p : Packed, p.Ok → (∀ r ∈ p.addresses, r.type = 1 → 4 ≤ r.rdata.length) →
      get c (encName (n.map (List.map lower)) ++ be16 (askType cfg.glueType)) = some p.enc →
      entryName cfg c list o rnd = .ok (match (if p.kind = 0 then p.pick rnd else none) with
        | some a => .ip a
        | none => .name (encName (n.map (List.map lower)) ++ be16 cfg.glueType))) := by
  have hlen : o ≤ list.contents.length := by
    by_contra hc
    rw [List.drop_eq_nil_of_le (by omega)] at h
    simp [NsHost.enc] at h
  have hd : (list.buf.drop 3).drop o = encName n ++ (rest ++ list.buf.drop list.len) := by
    have hb : list.buf = list.contents ++ list.buf.drop list.len := by
      rw [DwStr.contents, List.take_append_drop]
    rw [List.drop_drop, Nat.add_comm, ← List.drop_drop]
    conv_lhs => rw [hb]
    rw [List.drop_append_of_le_length hlen, h]
    simp [NsHost.enc, be16]
  have he : getDname (list.buf.drop 3) o 256 = .ok (encName n, n.length) := by
    have := nameOk_length hn
    have := hn.2
    unfold getDname
    simp only [gt_iff_lt, show ¬ (260 < 256) by omega, if_false]
    rw [if_neg (by omega)]
    rw [dnameLoop_near _ 260 (by omega) n 400 o [] _ (by omega) (by omega) hn.1 hd ho (by simp; omega) hctl]
    simp
  constructor
  · intro hg
    unfold entryName
    dsimp only
    rw [he]
    dsimp only
    rw [lowerBytes_enc hn, Res.ok_bind,
      show (if cfg.glueType = 1 ∨ cfg.glueType = 28 ∨ cfg.glueType = 255 then cfg.glueType else 1) = askType cfg.glueType from rfl, hg]
    rfl
  · intro p hp hA hg
    unfold entryName
    dsimp only
    rw [he]
    dsimp only
    rw [lowerBytes_enc hn, Res.ok_bind,
      show (if cfg.glueType = 1 ∨ cfg.glueType = 28 ∨ cfg.glueType = 255 then cfg.glueType else 1) = askType cfg.glueType from rfl, hg]
    dsimp only
    rw [fromAnswer_exact hp hA, Res.ok_bind]
    cases (if p.kind = 0 then p.pick rnd else none) <;> rfl

/-- C115 (finding).  A server whose name is to be read 254 bytes into the list or later is never asked, nor is its address. -/
theorem entryName_far {cfg : Cfg} {c : List Entry} {list : DwStr} {o rnd : Nat} (ho : 254 ≤ o) :
    entryName cfg c list o rnd = .ok .nobody := by
  have he : getDname (list.buf.drop 3) o 256 = .err := by
    unfold getDname
    simp only [gt_iff_lt, show ¬ (260 < 256) by omega, if_false]
    rw [if_neg (by omega), dnameLoop, if_pos (by omega)]
  unfold entryName
  dsimp only
  rw [he]

end Trust
end Dw
