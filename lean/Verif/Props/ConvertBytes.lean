import Verif.Props.Convert
import Verif.Props.Pipeline
/-!
# C94, from the bytes of the files
-/
namespace Verif.Pipeline
open Codec VarInt Source Core Named Archive

section
variable {L : Lib}

/-- The object of a usable version is as the theorems about conversion need it. -/
theorem version_fresh (he : L.env.Sound) {v : Src} (hu : Usable L v) {a : Root} {h : Nat} (hr : v.root L = .ok (a, h)) :
    a.erase.Fresh ∧ a.erase.defs.Wf := by
  obtain ⟨files, f1, f2, _⟩ := root_inv hu.names hr
  obtain ⟨js, f3, f4⟩ := tree_inv f2
  obtain ⟨_, l, hl, hd⟩ := hu.json files js f1 f3
  obtain ⟨h1, _, h3⟩ := C94_loaded L.env he js a f4 l hl hd
  exact ⟨h1, h3⟩

theorem session_stores {defs : AMap (Nat × RootValI)} {s t : AMap RootSab} (h : Session defs s t)
    (hs : ∀ k x, s.get k = some x → ∃ v, defs.get k = some v) : ∀ k x, t.get k = some x → ∃ v, defs.get k = some v := by
  induction h with
  | start => exact hs
  | change h1 h2 ih =>

    have ins : ∀ {t : AMap RootSab} {n y}, (∀ k x, t.get k = some x → ∃ v, defs.get k = some v) → (∃ v, defs.get n = some v) →
        ∀ k x, (t.insert n y).get k = some x → ∃ v, defs.get k = some v := by
      intro t n y ht hn k x hx
      by_cases hk : k = n
      · subst hk; exact hn
      · rw [AMap.get_insert_ne _ _ hk] at hx
        exact ht k x hx
    cases h2 <;> exact ins ih ⟨_, by assumption⟩

open Filesys in
/-- What was saved stores only what its version declares. -/
theorem saved_stores (he : L.env.Sound) (hh : ∀ b, L.hash b < 2 ^ 128) {P : Src → Prop} (hP : Versions L P)
    {d : Disk {v // P v}} {s' : Option (Root × Nat)} {k : Known Root} {bad : Nat → Prop} (hr : Reach (opsOn L P) (Saved L) d s' k bad)
    {h : Nat} (hlt : h < 2 ^ 128) {name : Bytes} (hn : isReserved name = false) {x : Root} (hk : k h name = some (some x)) : x.erase.Stores := by
  have hf := (hr.inv (C76_lawful he hh hP)).files h name hlt hn
  rw [hk] at hf
  obtain ⟨v, s, vals, b, h1, hg, _⟩ := hf
  have hs : s.erase.Stores := by
    obtain ⟨files, f1, f2, _⟩ := root_inv (hP.usable v.1 v.2).names h1
    obtain ⟨js, f3, f4⟩ := tree_inv f2
    obtain ⟨_, l, hl, hd⟩ := (hP.usable v.1 v.2).json files js f1 f3
    exact (C94_loaded L.env he js s f4 l hl hd).2.1
  have := session_stores hg.session fun k y hy => by
    obtain ⟨w, hw⟩ := hs k y hy
    rw [erase_get] at hw
    obtain ⟨e, he', _⟩ := Option.map_eq_some_iff.1 hw
    exact ⟨e, he'⟩
  intro n y hy
  obtain ⟨e, he'⟩ := this n y hy
  refine ⟨e.2.erase, ?_⟩
  rw [erase_get, hg.object]
  change (s.defs.get n).map _ = _
  rw [he']
  rfl

open Filesys in
/-- **C94 from bytes to bytes (partial).** An object was saved in any run (saves, edits of the source, crashes, removals). A process of another version
loads the file. What it reads from a parameter is the value that was set when the file was saved, or undefined, or the new default, as
`Converted` says. Missing: members that were no parameters in the old version, or were not there and may not be undefined. -/
theorem C94_bytes_partial (checked : Bool) (he : L.env.Sound) (hh : ∀ b, L.hash b < 2 ^ 128) {P : Src → Prop} (hP : Versions L P)
    (d : Disk {v // P v}) (s' : Root) (h' : Nat) (k : Known Root) (bad : Nat → Prop) (hr : Reach (opsOn L P) (Saved L) d (some (s', h')) k bad)
    (h : Nat) (hlt : h < 2 ^ 128) (name : Bytes) (hn : isReserved name = false) (x : Root) (hk : k h name = some (some x)) (validation : Bool)
    (hne : h' ≠ h) (hb : ¬ bad h) (z : Root)
    (hz : load checked (opsOn L P) (h', s') (HashDir.hashToFolderName h) name validation d = .ok z)
    (n : String) (p : Diff.Param) (vt : Diff.VType) (hp : s'.erase.defs.get n = some (.param p vt))
    (ho : (∃ p0 vt0, x.erase.defs.get n = some (.param p0 vt0)) ∨ x.erase.defs.get n = none ∧ Core.Undefiable vt) (q : Diff.Param) :
    getRootParam z.erase n = some q ↔ Converted s'.erase x.erase n q := by
  obtain ⟨y, ⟨h1, h2⟩, _, h3⟩ := C76_end_to_end_partial checked he hh hP d s' h' k bad hr h hlt name hn x hk validation
  obtain ⟨_, _, _, _, h4⟩ := h3 hne hb
  rw [h4] at hz
  obtain ⟨_, _, hz⟩ := bind_inv hz
  obtain ⟨_, h5⟩ := C76_adjust hz
  obtain ⟨v, hv⟩ := (hr.inv (C76_lawful he hh hP)).proc s' h' rfl
  obtain ⟨hf, hw⟩ := version_fresh he (hP.usable v.1 v.2) hv
  have hd : y.erase.defs = x.erase.defs := by rw [h1]; rfl
  obtain ⟨e1, e2⟩ := adjust_param hw hf h5 hp
  rw [hd] at e1 e2
  have hzd : z.erase.defs.get n = some (.param p vt) := by rw [adjust_defs h5]; exact hp
  unfold getRootParam
  rw [hzd]
  rcases ho with ⟨p0, vt0, ho⟩ | ⟨ho, hu⟩
  · have hs : y.erase.sabun.get n = x.erase.sabun.get n := by
      rw [erase_get] at ho
      obtain ⟨⟨id, w⟩, ho, hw'⟩ := Option.map_eq_some_iff.1 ho
      cases w <;> cases hw'
      exact (h2.params n id _ _ ho).symm
    rw [e2 (fun e => by rw [ho] at e; cases e), hs]
    constructor
    · intro hq
      split at hq
      · rename_i q' e
        cases hq
        exact .kept hp e
      · rename_i e
        cases hq
        exact .default hp e (fun e => by rw [ho] at e; cases e)
    · intro hq
      cases hq with
      | kept _ e => rw [e]
      | undef _ e => rw [ho] at e; cases e
      | default e3 e4 =>
        rw [hp] at e3
        cases e3
        split
        · rename_i q' e
          exact absurd e (e4 q')
        · rfl
  · rw [e1 ho hu]
    constructor
    · rintro ⟨⟩
      exact .undef hp ho hu ((toUndefined_iff p _).1 rfl).1 ((toUndefined_iff p _).1 rfl).2
    · intro hq
      cases hq with
      | kept _ e =>
        obtain ⟨w, hw'⟩ := saved_stores he hh hP hr hlt hn hk n _ e
        rw [ho] at hw'
        cases hw'
      | undef e3 _ _ e5 e6 =>
        rw [hp] at e3
        cases e3
        rw [(toUndefined_iff p q).2 ⟨e5, e6⟩]
      | default e3 _ e5 =>
        rw [hp] at e3
        cases e3
        exact absurd hu (e5 ho)

end

end Verif.Pipeline
