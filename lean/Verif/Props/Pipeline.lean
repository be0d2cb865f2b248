import Verif.Lemmas.Pipeline
import Verif.Props.Filesys
/-!
# Property C76: save files, from the bytes of the source to the object that is loaded
-/
namespace Verif.Pipeline
open Codec VarInt Source Core Named Archive

section
variable {L : Lib}

theorem messages_sorted {files : List (String × Bytes)} (h : Sorted files) :
    messages L.fns (archiveAll L.fns files) = files.map fun f => (f.1, L.compress f.2) := by
  unfold messages
  rw [archiveAll_sorted L.fns h, List.map_map]
  rfl

/-- **C76: an archive is its source.** The archive of a usable version is read as the object and the hash of this version. -/
theorem C76_archive {v : Src} (hu : Usable L v) {r : Root} {h : Nat} (hr : v.root L = .ok (r, h)) {out : Bytes}
    (ho : v.toArchive L = .ok out) : archiveRoot L out = .ok (r, h) := by
  cases v with
  | archive b => cases ho; exact hr
  | dir p es =>
    obtain ⟨files, h1, h2⟩ := dir_data L p es (hu.names p es rfl)
    obtain ⟨a1, a2, a3⟩ := hu.archive p es rfl files h1
    change dirRoot L p es = _ at hr
    change archiveDir L p es = _ at ho
    unfold dirRoot at hr
    unfold archiveDir at ho
    rw [h2, Res.bind_ok] at hr ho
    obtain ⟨_, _, hr⟩ := bind_inv hr
    obtain ⟨out', ho', hread⟩ := C45_hash L.fns files h1.1 a1 (fun f hf => (a2 f hf).1) (fun f hf => (a2 f hf).2) _ (List.Perm.refl _)
    rw [ho] at ho'
    cases ho'
    rw [messages_sorted h1.1] at ho
    have := hread (a3 out ho) []
    rw [List.append_nil] at this
    unfold archiveRoot
    rw [this, Res.bind_ok]
    exact hr

/-- **C76: a part of an archive** is refused, or read as the whole (if the whole has bytes that are not read). -/
theorem C76_torn_archive {r : Root} {h : Nat} {out : Bytes} (hw : archiveRoot L out = .ok (r, h)) (n : Nat) :
    archiveRoot L (out.take n) = .err ∨ archiveRoot L (out.take n) = .ok (r, h) := by
  unfold archiveRoot at hw ⊢
  obtain ⟨⟨d, rest⟩, h1, h2⟩ := bind_inv hw
  cases hc : readArchive L.fns (out.take n) with
  | err => exact .inl rfl
  | panic =>
    have := (Archive.Stable.readArchive L.fns).panic _ (out.drop n) hc
    rw [List.take_append_drop, h1] at this
    cases this
  | ok x =>
    have := (Archive.Stable.readArchive L.fns).ok _ x.1 x.2 (out.drop n) hc
    rw [List.take_append_drop, h1] at this
    simp only [Res.ok.injEq, Prod.mk.injEq] at this
    right
    rw [Res.bind_ok, ← this.1]
    exact h2

/-- **C76: the diff of what is saved.** It can be encoded, and applied to the loaded object it gives the saved one. -/
theorem C76_diff (he : L.env.Sound) {v : Src} (hu : Usable L v) {a b : Root} {h : Nat} (hr : v.root L = .ok (a, h)) (hs : Saved L a b) :
    ∃ vals out, (ops L).diff a b = .ok vals ∧ (∀ x ∈ vals, Valid x) ∧ vals.length < 2 ^ 63 ∧ encodeVals vals = .ok out ∧ out.length < 2 ^ 60 ∧
      ∃ y, (ops L).app a (vals.map norm) = .ok y ∧ SameObject b y := by
  obtain ⟨files, f1, f2, _⟩ := root_inv hu.names hr
  obtain ⟨js, f3, f4⟩ := tree_inv f2
  obtain ⟨hp, l, hl, hd⟩ := hu.json files js f1 f3
  have hval : loadValid L.env js = .ok a := by
    unfold loadValid
    rw [f4, Res.bind_ok, hu.valid a h hr]
    rfl
  obtain ⟨hm, hlen⟩ := hu.memory a h hr
  obtain ⟨hno, c, hc, hsz⟩ := hu.lists a h hr
  obtain ⟨h1, h2⟩ := C72_loaded_plain_partial L.env he js hp a hval l hl hd hm
  have hfr := (C60_plain_partial L.env he js hp a f4).1
  have hof : OptUndefined a.defs a.sabun := fun k id d hk => absurd hk (hno k id d)
  have hot : OptUndefined a.defs b.sabun := fun k id d hk => absurd hk (hno k id d)
  have hn := levelOk_depth a.table
  obtain ⟨bytes, g1, g2⟩ := C73_session_partial L.float hc h1 hn hlen hsz L.ptr hfr h2 hof hs.session hs.settled
  unfold nGetDiff at g1
  obtain ⟨dd, g3, g4⟩ := bind_inv g1
  obtain ⟨vals, g5, g6⟩ := bind_inv g4
  have hk : (ops L).diff a b = .ok vals := by
    show kvals L _ a b = _
    unfold kvals
    rw [g3, Res.bind_ok]
    exact g5
  have hv : ∀ x ∈ vals, Valid x := session_valid L.float hc h1 hn hlen hsz L.ptr h2 (C73_session_fits hs.session hfr h2).2 hof hot hk
  have hlt := hs.fits vals bytes hk g6
  have hvl := Diff.length_lt_of_encode g6 hlt
  obtain ⟨res, g7, g8⟩ := g2 hlt
  refine ⟨vals, bytes, hk, hv, hvl, g6, hlt, { a with sabun := res }, ?_, ?_, ?_⟩
  · have hdec := decode_encodeVals vals hv hvl bytes g6 (by omega) []
    rw [List.append_nil] at hdec
    unfold nApplyDiff at g7
    rw [hdec, Res.bind_ok] at g7
    obtain ⟨q, g9, g10⟩ := bind_inv g7
    show applyVals L _ a _ = _
    unfold applyVals
    rw [g9, Res.bind_ok, g10]
    rfl
  · rw [hs.object]
  · have : b.defs = a.defs := by rw [hs.object]
    rw [this]
    exact g8

/-- **C76: the assumptions of C39, C40, C53 and C54 are met** by the functions of the other crates, if hashes have 128 bits and do not
collide, and what is saved was reached by sessions. -/
theorem C76_lawful (he : L.env.Sound) (hh : ∀ b, L.hash b < 2 ^ 128) {P : Src → Prop} (hP : Versions L P) :
    (opsOn L P).Lawful (Saved L) SameObject where
  hash v s h hv := by
    obtain ⟨_, _, _, b, rfl⟩ := root_inv (hP.usable v.1 v.2).names hv
    exact hh b
  collision v v' s s' h hv hv' := hP.collision v.1 v'.1 s s' h v.2 v'.2 hv hv'
  whole v s h out hv ha := C76_archive (hP.usable v.1 v.2) hv ha
  torn v s h out n hv ha _ := by
    have := C76_archive (hP.usable v.1 v.2) hv ha
    change archiveRoot L _ = .err ∨ archiveRoot L _ = archiveRoot L out
    rw [this]
    exact C76_torn_archive this n
  diff w a h b vals hw hg hd := by
    obtain ⟨vals', out, h1, h2, h3, h4, h5, h6⟩ := C76_diff he (hP.usable w.1 w.2) hw hg
    rw [show (opsOn L P).diff a b = (ops L).diff a b from rfl, h1] at hd
    cases hd
    refine ⟨h2, h3, fun out' ho => ?_, h6⟩
    rw [h4] at ho
    cases ho
    omega

/-- **C76, adjusting.** What is adjusted to another version has the definitions and the table of that version, and is what C18 to C21 speak of. -/
theorem C76_adjust {new old r : Root} {validation : Bool} (h : adjust new old validation = .ok r) :
    r = { new with sabun := r.sabun } ∧ adjustVersions new.erase old.erase validation = .ok r.erase := by
  obtain ⟨x, h1, rfl⟩ := map_inv h
  refine ⟨rfl, ?_⟩
  rw [h1]
  obtain ⟨s, _, h2⟩ := bind_inv h1
  obtain ⟨_, _, rfl⟩ := map_inv h2
  rfl

open Filesys in
/-- **C76 (partial).** Source files are loaded, the object is changed in a session and saved; the process ends or dies, the source is
edited, other files are saved and removed, in any order. A process of the same version loads the object as it was saved. A process of
another version loads it as adjusted to its own source, if the archive was not spoiled (C40). Missing: what C72, C73 and C40 exclude. -/
theorem C76_end_to_end_partial (checked : Bool) (he : L.env.Sound) (hh : ∀ b, L.hash b < 2 ^ 128) {P : Src → Prop} (hP : Versions L P)
    (d : Disk {v // P v}) (s' : Root) (h' : Nat) (k : Known Root) (bad : Nat → Prop) (hr : Reach (opsOn L P) (Saved L) d (some (s', h')) k bad)
    (h : Nat) (hlt : h < 2 ^ 128) (name : Bytes) (hn : isReserved name = false) (x : Root) (hk : k h name = some (some x)) (validation : Bool) :
    ∃ y, SameObject x y ∧
      (h' = h → load checked (opsOn L P) (h', s') (HashDir.hashToFolderName h) name validation d = .ok y) ∧
      (h' ≠ h → ¬ bad h → ∃ v s, P v ∧ v.root L = .ok (s, h) ∧ load checked (opsOn L P) (h', s') (HashDir.hashToFolderName h) name validation d =
        (if validation then validateRoot s.erase false else .ok ()).bind fun _ => adjust s' y validation) := by
  obtain ⟨y, h1, h2, h3⟩ := C53_load checked (opsOn L P) (C76_lawful he hh hP) d s' h' k bad hr h hlt name hn x hk validation
  refine ⟨y, h1, h2, fun hne hb => ?_⟩
  obtain ⟨v, s, h4, h5⟩ := h3 hne hb
  exact ⟨v.1, s, v.2, h4, h5⟩

open Filesys in
/-- **C76: what is saved is written.** A session that started with the loaded object can be saved, if the name is free or may be
overwritten and the source can be archived. -/
theorem C76_saves (he : L.env.Sound) (hh : ∀ b, L.hash b < 2 ^ 128) {P : Src → Prop} (hP : Versions L P) (d : Disk {v // P v}) (v : {v // P v})
    (s : Root) (h : Nat) (hv : v.1.root L = .ok (s, h)) (now : HashDir.Time) (hnow : 0 ≤ now.secs) (name : Bytes) (hn : isReserved name = false)
    (x : Root) (hg : Saved L s x) (ow : Bool) (c : Bytes) (hc : d.src.1.toArchive L = .ok c)
    (hf : ow = true ∨ d.read (HashDir.hashToFolderName h) name = none) :
    ∃ acts, save (opsOn L P) (h, s) now name x ow d = (acts, .ok ()) := by
  obtain ⟨vals, _, h1, _⟩ := C76_diff he (hP.usable v.1 v.2) hv hg
  exact C54_saves (opsOn L P) (C76_lawful he hh hP) (h, s) v hv now hnow name hn x hg ow d c hc vals h1 hf

/-- **C76: a folder can be archived** if its files fit. -/
theorem C76_archives {p : String} {es : List Node} (hu : Usable L (.dir p es)) : ∃ c, (Src.dir p es).toArchive L = .ok c := by
  obtain ⟨files, h1, h2⟩ := dir_data L p es (hu.names p es rfl)
  obtain ⟨a1, a2, a3⟩ := hu.archive p es rfl files h1
  obtain ⟨out, ho, _⟩ := C45_hash L.fns files h1.1 a1 (fun f hf => (a2 f hf).1) (fun f hf => (a2 f hf).2) _ (List.Perm.refl _)
  refine ⟨out, ?_⟩
  change archiveDir L p es = _
  unfold archiveDir
  rw [h2, Res.bind_ok]
  exact ho

end

end Verif.Pipeline
