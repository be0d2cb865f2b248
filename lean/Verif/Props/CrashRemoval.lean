import Verif.Lemmas.CrashRemoval
import Verif.Props.Removal
import Verif.Props.Crash
import Verif.Props.HistoryRealEx
import Verif.Props.HistorySessionEx
/-!
# Property C87 (removed files, interrupted writes and several processes, from the bytes to the objects)

C85 says what can be loaded when files are removed, for files that are written as a whole and functions whose diffs restore everything;
C38 and C78 say what is loaded when writing is interrupted, for bytes and real objects, without removals. This is all of it together.
-/
namespace Verif.Removal
open VarInt FileName FileHistory Phase Codec History Remover

section
variable {S : Type}

/-! ## Byte strings -/

/-- C87: save, load, restart, change to another process, interrupt any save after any number of bytes, and remove any files but the newest
one, in any order. The listed files are those of the created files that are still there. Loading one of them gives the object that was saved
in it, or an error. -/
theorem C87_never_wrong (o : Opts) (k : KOps S) (hlaw : k.Lawful) (st : BSt) (log : List (Props × S)) (torn : List Props)
    (hr : BReachR Others o k.ops st log torn) :
    ∃ h, st.history = .ok h ∧ (∀ p, p ∈ h.listFiles ↔ (∃ s, (p, s) ∈ log) ∧ BThere st p) ∧
      ∀ p s, (p, s) ∈ log → p ∈ h.listFiles → bload o k.ops st.dir h p = .ok s ∨ bload o k.ops st.dir h p = .err := by
  obtain ⟨w, g, gb, hs⟩ := hr.sim hlaw
  obtain ⟨h, hh, h1, h2⟩ := C85_never_wrong o k.ops hlaw.ops w log hs.reach
  refine ⟨h, hs.history ▸ hh, fun p => by rw [h1, hs.there], fun p s he hp => ?_⟩
  obtain ⟨l1, l2⟩ := hs.load hlaw h hh p hp
  by_cases ht : p ∈ torn
  · exact .inr (l2 ht)
  · rw [l1 ht]
    exact h2 p s he hp

/-- C87, exactly: a listed file can be loaded if and only if it is complete and all files it needs are there (and it is not one of the
files of which the code loses the parent, see C29). -/
theorem C87_exact (o : Opts) (k : KOps S) (hlaw : k.Lawful) (st : BSt) (log : List (Props × S)) (torn : List Props)
    (hr : BReachR Others o k.ops st log torn) (h : FileHistory.History) (hh : st.history = .ok h) (p : Props) (s : S) (he : (p, s) ∈ log)
    (hp : p ∈ h.listFiles) :
    bload o k.ops st.dir h p = .ok s ↔ p ∉ torn ∧ ¬ Lost o log p ∧ ∀ q, Needs o log p q → BThere st q := by
  obtain ⟨w, g, gb, hs⟩ := hr.sim hlaw
  have hh' : w.history = .ok h := by rw [← hs.history]; exact hh
  obtain ⟨l1, l2⟩ := hs.load hlaw h hh' p hp
  have hx := C85_exact o k.ops hlaw.ops w log hs.reach h hh' p s he hp
  by_cases ht : p ∈ torn
  · rw [l2 ht]
    exact ⟨(fun hc => by cases hc), fun hc => absurd ht hc.1⟩
  · rw [l1 ht, hx]
    simp only [hs.there]
    exact ⟨fun hc => ⟨ht, hc⟩, fun hc => hc.2⟩

/-- C87 (partial), the remover: with `remove_old_files` (keeping at least one file) instead of any removals, every listed file that is
complete still loads as the object that was saved in it, if the files are not cumulative or there are exactly two phases. Missing:
cumulative files with three or more phases, the default (`C85_negation`), or with only one. -/
theorem C87_old_partial (o : Opts) (hc : o.cumulative = none ∨ o.maxPhase = 1) (k : KOps S) (hlaw : k.Lawful) (st : BSt)
    (log : List (Props × S)) (torn : List Props) (hr : BReachR (Old o) o k.ops st log torn) :
    ∃ h, st.history = .ok h ∧ ∀ p s, (p, s) ∈ log → p ∈ h.listFiles → p ∉ torn → ¬ Lost o log p →
      bload o k.ops st.dir h p = .ok s := by
  obtain ⟨w, g, gb, hs⟩ := hr.simOld hlaw
  obtain ⟨h, hh, h1⟩ := C85_old_partial o hc k.ops hlaw.ops w log hs.reach
  refine ⟨h, hs.history ▸ hh, fun p s he hp ht hnl => ?_⟩
  rw [(hs.load hlaw h hh p hp).1 ht]
  exact h1 p s he hp hnl

/-! ## Objects -/

/-- A run of real objects is a run of what is seen of them. -/
theorem reachR_seen {T : Type} {k : KOps S} {k' : KOps T} {α : S → T} {Inv : S → Prop} {Good : S → S → Prop}
    {may : FileHistory.History → List Props → Prop} (h : Simulates k k' α Inv Good) {o : Opts} {st : BSt} {log : List (Props × S)}
    {torn : List Props} (hr : RReachR may o k.ops Good st log torn) : BReachR may o k'.ops st (seen α log) torn := by
  induction hr with
  | start dir hn hf => exact .start dir hn hf
  | save shift st st' log torn rid s p _ hl hg hf hs ih =>
    rw [h.plan o shift st rid s hg] at hf
    rw [h.save o shift st rid s hg] at hs
    exact .save shift st st' _ torn rid (α s) p ih ((seen_length α log).trans_lt hl) hf hs
  | fail shift st st' log torn rid s r _ hl hg hs hp ih =>
    rw [h.save o shift st rid s hg] at hs
    exact .fail shift st st' _ torn rid (α s) r ih ((seen_length α log).trans_lt hl) hs hp
  | interrupt shift st log torn rid s name c f p n _ hl hg hp hf hc ih =>
    rw [h.plan o shift st rid s hg] at hp
    exact .interrupt shift st _ torn rid (α s) name c f p n ih ((seen_length α log).trans_lt hl) hp hf hc
  | load st log torn hist p rid _ hh hp ih =>
    rw [h.loadFile]
    exact .load st _ torn hist p rid ih hh hp
  | list st dir log torn _ hp ih => exact .list st dir _ torn ih hp
  | restart st log torn _ ih => exact .restart st _ torn ih
  | other st log torn r e _ he ht ih => exact .other st _ torn r (e.1, α e.2) ih (List.mem_map.mpr ⟨e, he, rfl⟩) ht
  | remove st log torn hist gone _ hh hm ih => exact .remove st _ torn hist gone ih hh hm

theorem needs_seen {T : Type} (α : S → T) (o : Opts) (log : List (Props × S)) (p q : Props) :
    Needs o (seen α log) p q ↔ Needs o log p q := by
  have hd : ∀ p q, Dep o (seen α log) p q ↔ Dep o log p q := by
    intro p q
    unfold Dep seen
    simp only [List.mem_map, exists_exists_and_eq_and]
  constructor
  · intro h
    induction h with
    | self p => exact .self p
    | next p q r h _ ih => exact .next p q r ((hd p q).1 h) ih
  · intro h
    induction h with
    | self p => exact .self p
    | next p q r h _ ih => exact .next p q r ((hd p q).2 h) ih

/-- Without removals it is a run of C78. -/
theorem reachR_of {may : FileHistory.History → List Props → Prop} {o : Opts} {ops : Ops S} {Good : S → S → Prop} {st : BSt}
    {log : List (Props × S)} {torn : List Props} (hr : RReach o ops Good st log torn) : RReachR may o ops Good st log torn := by
  induction hr with
  | start dir hn hf => exact .start dir hn hf
  | save shift st st' log torn rid s p _ hl hg hf hs ih => exact .save shift st st' log torn rid s p ih hl hg hf hs
  | fail shift st st' log torn rid s r _ hl hg _ hs hp ih => exact .fail shift st st' log torn rid s r ih hl hg hs hp
  | interrupt shift st log torn rid s name c f p n _ hl hg hp hf hc ih =>
    exact .interrupt shift st log torn rid s name c f p n ih hl hg hp hf hc
  | load st log torn hist p rid _ hh hp ih => exact .load st log torn hist p rid ih hh hp
  | list st dir log torn _ hp ih => exact .list st dir log torn ih hp
  | restart st log torn _ ih => exact .restart st log torn ih
  | other st log torn r e _ he ht ih => exact .other st log torn r e ih he ht

end
end Verif.Removal

namespace Verif.Pipeline
open Codec VarInt Source Core Named Archive History FileName FileHistory Phase Removal

section
variable {L : Lib}

theorem log_saveableR {may : FileHistory.History → List Props → Prop} {o : Phase.Opts} {k : Ops Root} {r : Root} {st : BSt}
    {log : List (Props × Root)} {torn : List Props} (hr : RReachR may o k (Saveable L r) st log torn) :
    ∀ e ∈ log, e.2 = { r with sabun := e.2.sabun } ∧ RootFits r.defs e.2.sabun := by
  have comp : ∀ {shift : Shift} {st : BSt} {rid : Nat} {s : Root} {x}, bplan o shift k st rid none s = .ok x →
      (∀ a, Compared o shift k st rid a → Saveable L r a s) → s = { r with sabun := s.sabun } ∧ RootFits r.defs s.sabun := by
    intro shift st rid s x hx hg
    unfold bplan at hx
    rw [plan_eq] at hx
    obtain ⟨a, ha, _⟩ := bind_inv hx
    exact ⟨(hg a ha).object, (hg a ha).fits⟩
  induction hr with
  | start dir hn hf => intro e he; cases he
  | save shift st st' log torn rid s p _ _ hg _ hs ih =>
    intro e he
    rcases List.mem_cons.mp he with rfl | he
    · unfold bsave at hs
      cases hx : bplan o shift k st rid none s with
      | ok x => exact comp hx hg
      | err => rw [hx] at hs; cases hs
      | panic => rw [hx] at hs; cases hs
    · exact ih e he
  | fail _ _ _ _ _ _ _ _ _ _ _ _ _ ih => exact ih
  | interrupt shift st log torn rid s name c f p n _ _ hg hp _ _ ih =>
    intro e he
    rcases List.mem_cons.mp he with rfl | he
    · exact comp hp hg
    · exact ih e he
  | load _ _ _ _ _ _ _ _ _ ih => exact ih
  | list _ _ _ _ _ _ ih => exact ih
  | restart _ _ _ _ ih => exact ih
  | other _ _ _ _ _ _ _ _ ih => exact ih
  | remove _ _ _ _ _ _ _ _ ih => exact ih

/-- **C87 (partial), objects.** The files of a usable source are loaded. Objects are saved into a history by any number of processes, with any
options; writing may be interrupted after any number of bytes, and any files but the newest one may be removed at any time. Then a listed
file is loaded as the object that was saved in it, up to the order of maps, exactly if it is complete and all files it needs are there;
otherwise it is an error. Missing: changes that a diff cannot express (`Saveable`, see C73 and C78_negation), and files that
C29 finds lost. -/
theorem C87_objects_partial (he : L.env.Sound) {v : Src} (hu : Usable L v) {r : Root} {hash : Nat} (hv : v.root L = .ok (r, hash)) (o : Phase.Opts)
    (st : BSt) (log : List (Props × Root)) (torn : List Props) (hr : RReachR Others o (histOps L r).ops (Saveable L r) st log torn) :
    ∃ h, st.history = .ok h ∧ (∀ p, p ∈ h.listFiles ↔ (∃ s, (p, s) ∈ log) ∧ BThere st p) ∧
      ∀ p s, (p, s) ∈ log → p ∈ h.listFiles →
        ((p ∉ torn ∧ ¬ Lost o log p ∧ ∀ q, Needs o log p q → BThere st q) →
          ∃ y, bload o (histOps L r).ops st.dir h p = .ok y ∧ SameObject s y) ∧
        (¬ (p ∉ torn ∧ ¬ Lost o log p ∧ ∀ q, Needs o log p q → BThere st q) → bload o (histOps L r).ops st.dir h p = .err) := by
  obtain ⟨hs, hlaw⟩ := hist_simulates he hu hv
  have hb := reachR_seen hs hr
  obtain ⟨h, h1, h2, h3⟩ := C87_never_wrong o _ hlaw st _ torn hb
  have err : ∀ p, bload o (idHist L r).ops st.dir h p = .err → bload o (histOps L r).ops st.dir h p = .err := by
    intro p hp
    have := (hs.load o st.dir h p).1
    rw [hp] at this
    cases hb : bload o (histOps L r).ops st.dir h p with
    | ok y => rw [hb] at this; cases this
    | err => rfl
    | panic => rw [hb] at this; cases this
  refine ⟨h, h1, fun p => ?_, fun p s hp hpl => ?_⟩
  · rw [h2]
    refine and_congr_left fun _ => ⟨?_, ?_⟩
    · rintro ⟨s, hs⟩
      obtain ⟨e, he, hx⟩ := List.mem_map.mp hs
      cases hx
      exact ⟨_, he⟩
    · rintro ⟨s, hs⟩
      exact ⟨_, List.mem_map.mpr ⟨(p, s), hs, rfl⟩⟩
  · have hm : (p, byId r s) ∈ seen (byId r) log := List.mem_map.mpr ⟨(p, s), hp, rfl⟩
    have hx := C87_exact o _ hlaw st _ torn hb h h1 p (byId r s) hm hpl
    rw [lost_seen] at hx
    simp only [needs_seen] at hx
    obtain ⟨h5, h6⟩ := log_saveableR hr _ hp
    refine ⟨fun hc => loaded_same he hu hv h5 h6 (hx.2 hc), fun hc => err p ?_⟩
    rcases h3 p (byId r s) hm hpl with hok | herr
    · exact absurd (hx.1 hok) hc
    · exact herr

/-- **C87 (partial), objects and the remover.** With `remove_old_files`, every listed file that is complete is loaded as the object that was saved
in it, if the files are not cumulative or there are exactly two phases. Missing: what `C87_objects_partial` and `C87_old_partial` miss. -/
theorem C87_objects_old_partial (he : L.env.Sound) {v : Src} (hu : Usable L v) {r : Root} {hash : Nat} (hv : v.root L = .ok (r, hash)) (o : Phase.Opts)
    (hc : o.cumulative = none ∨ o.maxPhase = 1) (st : BSt) (log : List (Props × Root)) (torn : List Props)
    (hr : RReachR (Old o) o (histOps L r).ops (Saveable L r) st log torn) :
    ∃ h, st.history = .ok h ∧ ∀ p s, (p, s) ∈ log → p ∈ h.listFiles → p ∉ torn → ¬ Lost o log p →
      ∃ y, bload o (histOps L r).ops st.dir h p = .ok y ∧ SameObject s y := by
  obtain ⟨hs, hlaw⟩ := hist_simulates he hu hv
  obtain ⟨h, h1, h2⟩ := C87_old_partial o hc _ hlaw st _ torn (reachR_seen hs hr)
  refine ⟨h, h1, fun p s hp hpl ht hnl => ?_⟩
  obtain ⟨h5, h6⟩ := log_saveableR hr _ hp
  exact loaded_same he hu hv h5 h6 (h2 p (byId r s) (List.mem_map.mpr ⟨(p, s), hp, rfl⟩) hpl ht (by rw [lost_seen]; exact hnl))

end

/-- The example of C78, after the removal of the older of its two files: it meets the hypotheses of `C87_objects_partial`. -/
theorem C87_sample : ∃ r st p p' h, (version false).root lib = .ok (r, 68) ∧ p'.order.length = 2 ∧ st.history = .ok h ∧ h.listFiles = [p'] ∧
    ¬ BThere st p ∧ RReachR Others .default (histOps lib r).ops (Saveable lib r) st
      [(p', { r with sabun := sampleMore }), (p, { r with sabun := sampleEnd })] [] := by
  obtain ⟨r, st, live, p, p', h1, h2, hr⟩ := C78_sessions_sample
  obtain ⟨hs, hlaw⟩ := hist_simulates idEnv_sound (version_usable false) h1
  have hrr := (hr.reach hs hlaw (sessions_keep idEnv_sound (version_usable false) h1)).1
  obtain ⟨w, hw⟩ := (hs.reach hrr).sim hlaw
  obtain ⟨h, hh, hk⟩ := hw.ideal.inv.history
  have hsort := hw.ideal.inv.sorted
  have hn := hk.newest hsort
  have hpp : p' ≠ p := by
    intro hc
    simp only [seen, List.map_cons, List.map_nil, List.pairwise_cons, List.mem_singleton] at hsort
    have := hsort.1 _ rfl
    simp only [hc] at this
    exact List.lt_irrefl _ this
  have hrem := RReachR.remove st _ [] h [p] (reachR_of (may := Others) hrr) (by rw [hw.history]; exact hh) (by
    intro n hnn hm
    rw [hn] at hnn
    simp only [seen, List.map_cons, List.head?_cons, Option.map_some, Option.some.injEq] at hnn
    rw [List.mem_singleton] at hm
    exact hpp (hnn.trans hm))
  have hnt : ¬ BThere (⟨bremoveFiles [p] st.dir, st.base⟩ : BSt) p := by
    rintro ⟨c, hc⟩
    simp only [bread_remove, List.map_cons, List.map_nil, List.mem_singleton, if_true] at hc
    cases hc
  obtain ⟨h', hh', hl, _⟩ := C87_objects_partial idEnv_sound (version_usable false) h1 .default _ _ _ hrem
  refine ⟨r, _, p, p', h', h1, h2, hh', ?_, hnt, hrem⟩
  obtain ⟨w', g, gb, hb⟩ := (reachR_seen hs hrem).sim hlaw
  have hw' := hb.rem.knows h' (by rw [← hb.history]; exact hh')
  have hp' : p' ∈ h'.listFiles := by
    refine (hl p').2 ⟨⟨_, List.mem_cons_self⟩, ?_⟩
    have : BThere st p' := by
      obtain ⟨f, c, _, _, _, _, h5, _⟩ := hw.files (p', byId r { r with sabun := sampleMore }) (by simp [seen])
      exact ⟨c, h5 (by simp)⟩
    obtain ⟨c, hc⟩ := this
    refine ⟨c, ?_⟩
    simp only [bread_remove]
    rw [if_neg, hc]
    simp only [List.map_cons, List.map_nil, List.mem_singleton]
    exact fun hc => hpp (filename_injective _ _ hc)
  have hmem : ∀ q ∈ h'.listFiles, q = p' := by
    intro q hq
    obtain ⟨⟨s, hs⟩, ht⟩ := (hl q).1 hq
    simp only [List.mem_cons, Prod.mk.injEq, List.not_mem_nil, or_false] at hs
    rcases hs with hs | hs
    · exact hs.1
    · rw [hs.1] at ht; exact absurd ht hnt
  have hnd := listFiles_sorted h' hw'.1
  cases hlist : h'.listFiles with
  | nil => rw [hlist] at hp'; cases hp'
  | cons a l =>
    rw [hlist] at hmem hnd
    have ha := hmem a (by simp)
    subst ha
    cases l with
    | nil => rfl
    | cons b l =>
      have hb := hmem b (by simp)
      subst hb
      exact absurd ((List.pairwise_cons.1 hnd).1 _ (by simp)) (List.lt_irrefl _)

end Verif.Pipeline
