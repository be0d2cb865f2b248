import Verif.Lemmas.HistorySession
import Verif.Lemmas.SaveExact
/-!
# When the object that a save compares with can be composed
-/
namespace Verif.History
open VarInt FileName FileHistory Phase Codec Source

section
variable {S : Type} {o : Opts} {k : KOps S} {bst : BSt} {st : St} {log : List (Props × S)} {torn : List Props}

/-- With incomplete files around, a save compares with the same object. -/
theorem Sim.planBase_eq (hlaw : k.Lawful) (hs : Sim o k bst st log torn) (shift : Shift) (rid : Nat) (tag : Option Bytes) :
    planBase o shift (bst.dir.map (·.1)) bst.base (bstat bst.dir) (fun l => bcompose k.ops bst.dir l k.ops.src) rid tag =
      planBase o shift (st.dir.map (·.1)) st.base (fun n => match st.dir.read n with | none => .err | some f => .ok f.1)
          (fun l => compose k.ops st.dir l k.ops.src) rid tag := by
  obtain ⟨h, hh, hk⟩ := hs.ideal.inv.history
  have hh' : createHistory (st.dir.map (·.1)) .empty = .ok h := hh
  unfold planBase
  rw [hs.names, hs.base, hh']
  simp only [Res.bind_ok]
  cases hb : baseFor st.base rid with
  | none => rfl
  | some b =>
    cases hn : h.newest with
    | none => rfl
    | some newest =>
      simp only
      cases hf : fromFile o h b newest with
      | none => rfl
      | some f =>
        simp only
        obtain ⟨⟨ef, hef, rfl⟩, hft⟩ := hs.from_complete hlaw h hh rid b newest f hb hf
        obtain ⟨file, c, h1, h2, h3, h4, h5, _⟩ := hs.files ef hef
        unfold bstat
        rw [h5 hft]
        simp only [h1, (file_whole h2 h4).1, Res.map_ok, Res.bind_ok]
        congr 1
        funext next
        cases hrev : ancestorsRev h ef.1 o.maxPhase o.cumulative.isSome with
        | err => rfl
        | panic => rfl
        | ok rev =>
          simp only [Res.bind_ok]
          cases hc : createDependencies rev.reverse next (if newest = ef.1 then newest.control else newest.control + 1) tag
              o.maxPhase o.cumulative.isSome with
          | err => rfl
          | panic => rfl
          | ok dp =>
            obtain ⟨deps, p⟩ := dp
            simp only [Res.bind_ok]
            have hsub : ∀ q ∈ deps, q ∈ rev := by
              obtain ⟨r, rfl, _⟩ := ancestorsRev_shape _ _ _ _ _ hrev
              obtain ⟨ord, prev, hno, rfl, hdeps⟩ := createDependencies_ok _ ef.1 (by simp) _ _ _ _ _ _ _ hc
              intro q hq
              rw [hdeps] at hq
              split at hq
              · exact List.mem_reverse.1 hq
              · exact List.mem_reverse.1 (List.mem_of_mem_take hq)
            rw [hs.comp deps (fun q hq => ⟨chain_logged hk ef hef _ _ rev hrev q (hsub q hq),
              fun hqt => hft (hs.clean h hh ef hef rev hrev q (hsub q hq) hqt ▸ hqt)⟩)]

/-- composing does not depend on how diffs are made -/
theorem compose_diff (ops ops' : Ops S) (hop : ops.app = ops'.app) (dir : Dir) : ∀ (l : List Props) (s : S),
    compose ops dir l s = compose ops' dir l s := by
  intro l
  induction l with
  | nil => intro s; rfl
  | cons p l ih =>
    intro s
    rw [compose, compose]
    rw [hop]
    cases dir.read p.filename with
    | none => rfl
    | some f =>
      simp only
      congr 1
      funext t
      exact ih t

/-- The object that a save compares with can be composed, unless the file to continue is stuck. -/
theorem planBase_ok (ho : o.build = .ok o) (shift : Shift) (hp : ∀ d, calcNextPhase o shift d ≠ .panic) (hlaw : k.Lawful)
    (hs : Sim o k bst st log torn) (rid : Nat) (hnd : ∀ b, bst.base = some (rid, b) → ¬ Stuck o log b) :
    ∃ a, planBase o shift (bst.dir.map (·.1)) bst.base (bstat bst.dir) (fun l => bcompose k.ops bst.dir l k.ops.src) rid none = .ok a := by
  rw [hs.planBase_eq hlaw]
  have hr := hs.ideal
  obtain ⟨h, hh, hk⟩ := hr.inv.history
  have hh' : createHistory (st.dir.map (·.1)) .empty = .ok h := hh
  cases hb : baseFor st.base rid with
  | none =>
    unfold planBase
    rw [hh', Res.bind_ok, hb]
    exact ⟨_, rfl⟩
  | some b =>
    obtain ⟨⟨b, sb⟩, he, rfl⟩ := hr.inv.base rid b (baseFor_inv hb)
    have hnew := hk.newest hr.inv.sorted
    cases log with
    | nil => simp at he
    | cons e0 l =>
      simp only [List.head?_cons, Option.map_some] at hnew
      obtain ⟨ef, hef, hf, hfl⟩ := fromFile_free hr h hh (b, sb) he e0.1 rfl (hnd b (by rw [hs.base]; exact baseFor_inv hb))
      simp only at hf
      let ops' : Ops S := ⟨k.ops.src, fun _ _ => .ok [], k.ops.app⟩
      obtain ⟨rev, hl1, hl2⟩ := (hr.loads hlaw.ops h hh ef hef).resolve_right hfl
      have hl' : Loads o ops' st.dir h ef.1 ef.2 := ⟨rev, hl1, by rw [compose_diff ops' k.ops rfl]; exact hl2⟩
      obtain ⟨r, hd⟩ := derive_succeeds ho hr.inv h hk shift ops' (fun _ _ => ⟨_, rfl⟩) k.src ef hef hp ef.2 hl'
      obtain ⟨np, file, next, rev', deps, c, d, h1, h2, h3, h4, h5, h6, h7, _⟩ := deriveImpl_ok _ _ _ _ _ _ _ _ _ _ hd
      rw [hnew] at h1
      cases h1
      unfold planBase
      rw [hh', Res.bind_ok, hb]
      simp only [hnew, hf, h2, h3, h4, h5, Res.bind_ok]
      exact ⟨c, by rw [compose_diff k.ops ops' rfl]; exact h6⟩

/-- After a stuck file there is nothing to compare with. -/
theorem planBase_stuck {T : Type} (comp : List Props → Res T) (shift : Shift) (hp : ∀ d, calcNextPhase o shift d ≠ .panic)
    (hs : Sim o k bst st log torn) (rid : Nat) (b : Props) (hb : bst.base = some (rid, b)) (hnd : Stuck o log b) :
    planBase o shift (bst.dir.map (·.1)) bst.base (bstat bst.dir) comp rid none = .err := by
  have hr := hs.ideal
  obtain ⟨h, hh, hk⟩ := hr.inv.history
  have hh' : createHistory (st.dir.map (·.1)) .empty = .ok h := hh
  rw [hs.base] at hb
  have hbt := hs.baseok _ _ hb
  obtain ⟨⟨b, sb⟩, he, rfl⟩ := hr.inv.base rid b hb
  have hbf : baseFor st.base rid = some b := by rw [hb]; simp [baseFor]
  have hnew := hk.newest hr.inv.sorted
  cases log with
  | nil => simp at he
  | cons e0 l =>
    simp only [List.head?_cons, Option.map_some] at hnew
    unfold planBase
    rw [hs.names, hs.base, hh', Res.bind_ok, hbf]
    simp only [hnew]
    rcases fromFile_stuck hr h hh (b, sb) he e0.1 rfl hnd with hf | ⟨hf, ha⟩
    · simp only at hf
      rw [hf]
    · simp only at hf ha
      rw [hf]
      simp only
      obtain ⟨file, c, h1, h2, h3, h4, h5, _⟩ := hs.files (b, sb) he
      unfold bstat
      rw [h5 hbt]
      simp only [(file_whole h2 h4).1, Res.map_ok, Res.bind_ok]
      cases hn : calcNextPhase o shift file.1 with
      | err => rfl
      | panic => exact absurd hn (hp _)
      | ok next =>
        rw [Res.bind_ok, ha]
        rfl

theorem Sim.free (hs : Sim o k bst st log torn) (hlaw : k.Lawful) (hm : o.maxPhase ≠ 0) (hnd : ∀ p ∈ log.map (·.1), p.prevCtl = p.control)
    (rid : Nat) (b : Props) (hb : bst.base = some (rid, b)) : ¬ Stuck o log b := by
  rw [hs.base] at hb
  obtain ⟨e, he, rfl⟩ := hs.ideal.inv.base rid b hb
  exact stuck_linear hlaw.ops hs.ideal hm (fun e he => hnd _ (List.mem_map_of_mem he)) e he

theorem stored_names {T : Type} {P : Props × S → Props × T → Prop} {log : List (Props × S)} {store : List (Props × T)}
    (h : List.Forall₂ (fun e e' => e'.1 = e.1 ∧ P e e') log store) : store.map (·.1) = log.map (·.1) := by
  induction h with
  | nil => rfl
  | cons h _ ih => rw [List.map_cons, List.map_cons, h.1, ih]

/-- Which files are stuck depends on the names of the files only. -/
theorem lost_names {T : Type} {log : List (Props × S)} {log' : List (Props × T)} (h : log.map (·.1) = log'.map (·.1)) (p : Props) :
    Lost o log p ↔ Lost o log' p := by
  have key : ∀ (P : Props → Prop), (∃ q ∈ log, P q.1) ↔ ∃ q ∈ log', P q.1 := by
    intro P
    have h1 : (∃ q ∈ log, P q.1) ↔ ∃ x ∈ log.map (·.1), P x := by simp
    have h2 : (∃ q ∈ log', P q.1) ↔ ∃ x ∈ log'.map (·.1), P x := by simp
    rw [h1, h2, h]
  unfold Lost
  rw [key fun q => q.control = p.control ∧ q.prevCtl ≠ q.control ∧ q.order.length = o.maxPhase + 1 ∧
    p.order = q.order.dropLast ++ [q.order.getLastD 0 + 1]]

theorem stuck_names {T : Type} {log : List (Props × S)} {log' : List (Props × T)} (h : log.map (·.1) = log'.map (·.1)) (p : Props) :
    Stuck o log p ↔ Stuck o log' p := by
  have key : ∀ (P : Props → Prop), (∀ q ∈ log, P q.1) ↔ ∀ q ∈ log', P q.1 := by
    intro P
    have h1 : (∀ q ∈ log, P q.1) ↔ ∀ x ∈ log.map (·.1), P x := by simp
    have h2 : (∀ q ∈ log', P q.1) ↔ ∀ x ∈ log'.map (·.1), P x := by simp
    rw [h1, h2, h]
  have hh : log.head?.map (·.1) = log'.head?.map (·.1) := by
    rw [← List.head?_map, h, List.head?_map]
  unfold Stuck Orphan
  rw [lost_names h, hh, key fun q => ¬(q.control = p.prevCtl ∧ q.order = p.order.dropLast)]

/-- If the object to compare with can be composed, nothing else can go wrong but the diff. -/
theorem planRest_ok {T : Type} (shift : Shift) (names : List Bytes) (base : Option (Nat × Props)) (stat : Bytes → Res Data) (comp : List Props → Res T)
    (rid : Nat) (tag : Option Bytes) (a : T) (h : planBase o shift names base stat comp rid tag = .ok a) (d : Bytes) :
    ∃ x, planRest o shift names base stat rid tag d = .ok x := by
  unfold planBase at h
  unfold planRest
  obtain ⟨hh, h1, h⟩ := bind_inv h
  rw [h1, Res.bind_ok]
  cases hb : baseFor base rid with
  | none => exact ⟨_, rfl⟩
  | some b =>
    rw [hb] at h
    cases hn : hh.newest with
    | none => exact ⟨_, rfl⟩
    | some newest =>
      rw [hn] at h
      simp only at h ⊢
      cases hf : fromFile o hh b newest with
      | none => rw [hf] at h; cases h
      | some f =>
        rw [hf] at h
        simp only at h ⊢
        obtain ⟨data, e1, h⟩ := bind_inv h
        obtain ⟨next, e2, h⟩ := bind_inv h
        obtain ⟨rev, e3, h⟩ := bind_inv h
        obtain ⟨dp, e4, h⟩ := bind_inv h
        simp only [e1, e2, e3, e4, Res.bind_ok]
        exact ⟨_, rfl⟩

end
end Verif.History
