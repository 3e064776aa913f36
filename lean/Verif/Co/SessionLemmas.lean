import Verif.Co.ReplyLemmas
/-!
# coLunacyDNS: lemmas on what happens one after the other
-/

namespace Co
open Dw (Res)
open Spec.Script (Quest Body)

theorem bind_ok {α β : Type} {r : Res α} {f : α → Res β} {b : β} (h : (r >>= f) = .ok b) : ∃ a, r = .ok a ∧ f a = .ok b := by
  cases r with
  | ok a => exact ⟨a, rfl, h⟩
  | err => cases h
  | ub => cases h

theorem findSlot_empty {α : Type} {slots : List (Option α)} : ∀ {n a i : Nat}, findSlot slots n a = .ok (some i) → slots[i]? = some none := by
  intro n
  induction n with
  | zero => intro a i h; simp [findSlot] at h
  | succ n ih =>
    intro a i h
    unfold findSlot at h
    split at h
    · cases h
    · rename_i e; simp at h; rw [← h]; exact e
    · exact ih h

/-- A question to another server: it is well-formed, a free place was found. -/
structure Begun {L : Script} (inet : List UInt8 → UInt32) (s : Server L) (c : Client) (buf : List UInt8) (qLen : Nat) (ask : Option Ask) (co : L.Co) (luck : Luck)
    (s' : Server L) (out : List Out) (t : Ask) (ty up z nm : List UInt8) (k a : Nat) : Prop where
  asks : ask = some t
  type : t.type = some ty
  types : ty = txt "A" ∨ ty = txt "ip6"
  upstream : t.upstream = some up
  name : t.name = some z
  sent : human2DNS luck.bits luck.junk z = .ok (some (nm, k))
  free : s.slots[a]? = some none
  next : s' = { s with top := max s.top a, slots := s.slots.set a (some ⟨co, qLen, buf, c, nm, luck.id, if ty = txt "A" then 1 else 28, luck.sent⟩) }
  outs : out = if luck.sent then [.ask (inet up) (askPacket luck.id nm (if ty = txt "A" then 1 else 28))] else []

theorem newDNS_started {L : Script} {inet : List UInt8 → UInt32} {s s' : Server L} {c : Client} {buf : List UInt8} {qLen : Nat} {ask : Option Ask}
    {co : L.Co} {luck : Luck} {out : List Out} (h : newDNS inet s c buf qLen ask co luck = .ok (.started s' out)) :
    ∃ t ty up z name k a, Begun inet s c buf qLen ask co luck s' out t ty up z name k a := by
  unfold newDNS at h
  split at h
  · cases h
  · rename_i t
    split at h
    · cases h
    · rename_i ty hty
      by_cases h1 : ty ≠ txt "A" ∧ ty ≠ txt "ip6"
      · rw [if_pos h1] at h; cases h
      rw [if_neg h1] at h
      split at h
      · cases h
      · rename_i up hup
        split at h
        · cases h
        · rename_i z hz
          obtain ⟨x, hx, h⟩ := bind_ok h
          split at h
          · cases h
          · rename_i name k
            obtain ⟨y, hy, h⟩ := bind_ok h
            split at h
            · cases h
            · rename_i a
              simp only [Res.ok.injEq, New.started.injEq] at h
              refine ⟨t, ty, up, z, name, k, a, rfl, hty, ?_, hup, hz, hx, findSlot_empty hy, h.1.symm, h.2.symm⟩
              by_cases e : ty = txt "A"
              · exact .inl e
              · by_cases e' : ty = txt "ip6"
                · exact .inr e'
                · exact absurd ⟨e, e'⟩ h1

/-- How a run of the script ends: the question waits for another server, or the script came to an end, perhaps after it was told about an
error. -/
inductive Driven {L : Script} (inet : List UInt8 → UInt32) (s : Server L) (c : Client) (buf : List UInt8) (qLen : Nat) (luck : Luck) :
    Step L.Co → Server L → List Out → Prop
  | waits {ask co s' out t ty up z name k a} : Begun inet s c buf qLen ask co luck s' out t ty up z name k a →
      Driven inet s c buf qLen luck (.solve ask co) s' out
  | over {step s' out} : finish inet s c buf qLen step = .ok (s', out) → Driven inet s c buf qLen luck step s' out
  | error {ask co why s' out} :
      finish inet { s with lua := (L.resume s.lua co (.error why)).1 } c buf qLen (L.resume s.lua co (.error why)).2 = .ok (s', out) →
      Driven inet s c buf qLen luck (.solve ask co) s' out

theorem drive_ok {L : Script} {inet : List UInt8 → UInt32} {s s' : Server L} {c : Client} {buf : List UInt8} {qLen : Nat} {st : Step L.Co} {luck : Luck}
    {out : List Out} (h : drive inet s c buf qLen st luck = .ok (s', out)) : Driven inet s c buf qLen luck st s' out := by
  cases st with
  | done r => exact .over h
  | broke => exact .over h
  | solve ask co =>
    unfold drive at h
    obtain ⟨x, hx, h⟩ := bind_ok h
    cases x with
    | started s1 o1 =>
      simp only [Res.ok.injEq, Prod.mk.injEq] at h
      obtain ⟨rfl, rfl⟩ := h
      obtain ⟨t, ty, up, z, name, k, a, hb⟩ := newDNS_started hx
      exact .waits hb
    | busy => exact .error h
    | bad why => exact .error h

theorem finish_ok {L : Script} {inet : List UInt8 → UInt32} {s s' : Server L} {c : Client} {buf : List UInt8} {qLen : Nat} {st : Step L.Co}
    {out : List Out} (h : finish inet s c buf qLen st = .ok (s', out)) :
    s' = s ∧ (out = [] ∨ ∃ r bytes, st = .done (some r) ∧ endThread inet buf qLen (some r) = .ok (some bytes) ∧ out = [.reply c bytes]) := by
  cases st with
  | done r =>
    have h : (endThread inet buf qLen r >>= fun x => match x with
      | some bytes => Res.ok (s, [Out.reply c bytes])
      | none => Res.ok (s, [])) = .ok (s', out) := h
    obtain ⟨x, hx, h2⟩ := bind_ok h
    clear h
    have h := h2
    clear h2
    cases x with
    | none =>
      simp only [Res.ok.injEq, Prod.mk.injEq] at h
      exact ⟨h.1.symm, .inl h.2.symm⟩
    | some bytes =>
      simp only [Res.ok.injEq, Prod.mk.injEq] at h
      obtain ⟨e1, e2⟩ := h
      cases r with
      | none => simp [endThread] at hx
      | some r => exact ⟨e1.symm, .inr ⟨r, bytes, rfl, hx, e2.symm⟩⟩
  | broke =>
    simp only [finish, Res.ok.injEq, Prod.mk.injEq] at h
    exact ⟨h.1.symm, .inl h.2.symm⟩
  | solve a co =>
    simp only [finish, Res.ok.injEq, Prod.mk.injEq] at h
    exact ⟨h.1.symm, .inl h.2.symm⟩

end Co
