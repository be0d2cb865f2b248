import Verif.Spec.HistoryReal
import Verif.Lemmas.SourceItems
/-!
# Histories of real objects as histories of what is compared of them
-/
namespace Verif.History
open VarInt FileName FileHistory Phase Codec Source

section
variable {S T : Type}

/-- What a plan does after the object to compare with is composed. -/
def planRest (o : Opts) (shift : Shift) (names : List Bytes) (base : Option (Nat × Props)) (stat : Bytes → Res Data) (rid : Nat)
    (tag : Option Bytes) (d : Bytes) : Res (Bytes × File × Res Props) :=
  (createHistory names .empty).bind fun h =>
  match baseFor base rid, h.newest with
  | some b, some newest =>
    match fromFile o h b newest with
    | none => .err
    | some f =>
      (stat f.filename).bind fun data =>
      (calcNextPhase o shift data).bind fun next =>
      (ancestorsRev h f o.maxPhase o.cumulative.isSome).bind fun rev =>
      (createDependencies rev.reverse next (if newest = f then newest.control else newest.control + 1) tag o.maxPhase o.cumulative.isSome).bind
        fun dp => .ok (dp.2.filename, (data.popAndPush next d.length, d), .ok dp.2)
  | _, _ =>
    let name := calcFilename tag (newControl h) none [0]
    .ok (name, (Data.new d.length, d), (analyze name).bind fun | some p => .ok p | none => .err)

theorem bind_same {α β : Type} (r : Res α) (f g : α → Res β) (h : ∀ a, r = .ok a → f a = g a) : r.bind f = r.bind g := by
  cases r with
  | ok a => exact h a rfl
  | err => rfl
  | panic => rfl

theorem plan_eq (o : Opts) (shift : Shift) (ops : Ops S) (names : List Bytes) (base : Option (Nat × Props)) (stat : Bytes → Res Data)
    (comp : List Props → Res S) (rid : Nat) (tag : Option Bytes) (s : S) :
    plan o shift ops names base stat comp rid tag s = (planBase o shift names base stat comp rid tag).bind fun a =>
      (ops.diff a s).bind fun d => planRest o shift names base stat rid tag d := by
  unfold plan planBase planRest
  cases createHistory names .empty with
  | err => rfl
  | panic => rfl
  | ok h =>
    simp only [Res.bind_ok]
    cases baseFor base rid with
    | none => rfl
    | some b =>
      cases hn : h.newest with
      | none => rfl
      | some newest =>
        simp only
        cases fromFile o h b newest with
        | none => rfl
        | some f =>
          simp only
          unfold planDerive
          rw [hn]
          simp only
          cases stat f.filename with
          | err => rfl
          | panic => rfl
          | ok data =>
            simp only [Res.bind_ok]
            cases calcNextPhase o shift data with
            | err => rfl
            | panic => rfl
            | ok next =>
              simp only [Res.bind_ok]
              cases ancestorsRev h f o.maxPhase o.cumulative.isSome with
              | err => rfl
              | panic => rfl
              | ok rev =>
                simp only [Res.bind_ok]
                cases createDependencies rev.reverse next (if newest = f then newest.control else newest.control + 1) tag o.maxPhase o.cumulative.isSome with
                | err => rfl
                | panic => rfl
                | ok dp => rfl

/-- The second functions do with what is seen of an object what the first do with the object. -/
structure Simulates (k : KOps S) (k' : KOps T) (α : S → T) (Inv : S → Prop) (Good : S → S → Prop) : Prop where
  src : α k.src = k'.src
  inv : Inv k.src
  keep : ∀ a v b, Inv a → k.app a v = .ok b → Inv b
  app : ∀ a v, Inv a → (k.app a v).map α = k'.app (α a) v
  diff : ∀ a s, Inv a → Good a s → k.diff a s = k'.diff (α a) (α s)

variable {k : KOps S} {k' : KOps T} {α : S → T} {Inv : S → Prop} {Good : S → S → Prop}

theorem Simulates.compose (h : Simulates k k' α Inv Good) (dir : BDir) : ∀ (l : List Props) (s : S), Inv s →
    (bcompose k.ops dir l s).map α = bcompose k'.ops dir l (α s) ∧ ∀ a, bcompose k.ops dir l s = .ok a → Inv a
  | [], s, hi => ⟨rfl, fun a ha => by cases ha; exact hi⟩
  | p :: rest, s, hi => by
    unfold bcompose
    cases dir.read p.filename with
    | none => exact ⟨rfl, fun a ha => by cases ha⟩
    | some c =>
      simp only
      cases decodeVals c with
      | err => exact ⟨rfl, fun a ha => by cases ha⟩
      | panic => exact ⟨rfl, fun a ha => by cases ha⟩
      | ok r =>
        simp only [Res.bind_ok, KOps.ops]
        cases decodeVals r.2 with
        | err => exact ⟨rfl, fun a ha => by cases ha⟩
        | panic => exact ⟨rfl, fun a ha => by cases ha⟩
        | ok v =>
          simp only [Res.bind_ok]
          have ha := h.app s v.1 hi
          cases hb : k.app s v.1 with
          | err => rw [hb] at ha; rw [← ha]; exact ⟨rfl, fun a ha => by cases ha⟩
          | panic => rw [hb] at ha; rw [← ha]; exact ⟨rfl, fun a ha => by cases ha⟩
          | ok b =>
            rw [hb] at ha
            rw [← ha]
            exact Simulates.compose h dir rest b (h.keep s v.1 b hi hb)

theorem Simulates.composeSrc (h : Simulates k k' α Inv Good) (dir : BDir) (l : List Props) :
    (bcompose k.ops dir l k.ops.src).map α = bcompose k'.ops dir l k'.ops.src ∧ ∀ a, bcompose k.ops dir l k.ops.src = .ok a → Inv a := by
  have := h.compose dir l k.src h.inv
  rw [h.src] at this
  exact this

theorem planBase_map (o : Opts) (shift : Shift) (names : List Bytes) (base : Option (Nat × Props)) (stat : Bytes → Res Data)
    (comp : List Props → Res S) (comp' : List Props → Res T) (hc : ∀ l, (comp l).map α = comp' l) (rid : Nat) (tag : Option Bytes) :
    (planBase o shift names base stat comp rid tag).map α = planBase o shift names base stat comp' rid tag := by
  have mb : ∀ {β : Type} (r : Res β) (f : β → Res S), (r.bind f).map α = r.bind fun b => (f b).map α := by
    intro β r f
    cases r <;> rfl
  unfold planBase
  rw [mb]
  congr 1
  funext h
  cases baseFor base rid with
  | none => exact hc []
  | some b =>
    cases h.newest with
    | none => exact hc []
    | some newest =>
      simp only
      cases fromFile o h b newest with
      | none => rfl
      | some f =>
        simp only [mb, hc]

theorem planBase_inv (o : Opts) (shift : Shift) (names : List Bytes) (base : Option (Nat × Props)) (stat : Bytes → Res Data)
    (comp : List Props → Res S) (P : S → Prop) (hc : ∀ l a, comp l = .ok a → P a) (rid : Nat) (tag : Option Bytes) (a : S)
    (h : planBase o shift names base stat comp rid tag = .ok a) : P a := by
  unfold planBase at h
  obtain ⟨hh, _, h⟩ := bind_inv h
  cases hb : baseFor base rid with
  | none => rw [hb] at h; exact hc _ _ h
  | some b =>
    rw [hb] at h
    cases hn : hh.newest with
    | none => rw [hn] at h; exact hc _ _ h
    | some newest =>
      rw [hn] at h
      simp only at h
      cases hf : fromFile o hh b newest with
      | none => rw [hf] at h; cases h
      | some f =>
        rw [hf] at h
        obtain ⟨_, _, h⟩ := bind_inv h
        obtain ⟨_, _, h⟩ := bind_inv h
        obtain ⟨_, _, h⟩ := bind_inv h
        obtain ⟨_, _, h⟩ := bind_inv h
        exact hc _ _ h

/-- A save of a good object writes the same file. -/
theorem Simulates.plan (h : Simulates k k' α Inv Good) (o : Opts) (shift : Shift) (st : BSt) (rid : Nat) (s : S)
    (hg : ∀ a, Compared o shift k.ops st rid a → Good a s) :
    bplan o shift k.ops st rid none s = bplan o shift k'.ops st rid none (α s) := by
  unfold bplan
  rw [plan_eq, plan_eq]
  have hm := planBase_map (α := α) o shift (st.dir.map (·.1)) st.base (bstat st.dir) (fun l => bcompose k.ops st.dir l k.ops.src)
    (fun l => bcompose k'.ops st.dir l k'.ops.src) (fun l => (h.composeSrc st.dir l).1) rid none
  rw [← hm]
  cases hb : planBase o shift (st.dir.map (·.1)) st.base (bstat st.dir) (fun l => bcompose k.ops st.dir l k.ops.src) rid none with
  | err => rfl
  | panic => rfl
  | ok a =>
    have hi := planBase_inv o shift _ _ _ _ Inv (fun l a => (h.composeSrc st.dir l).2 a) rid none a hb
    simp only [Res.bind_ok, Res.map]
    simp only [KOps.ops]
    rw [h.diff a s hi (hg a hb)]

theorem Simulates.save (h : Simulates k k' α Inv Good) (o : Opts) (shift : Shift) (st : BSt) (rid : Nat) (s : S)
    (hg : ∀ a, Compared o shift k.ops st rid a → Good a s) :
    bsave o shift k.ops st rid none s = bsave o shift k'.ops st rid none (α s) := by
  unfold bsave
  rw [h.plan o shift st rid s hg]

theorem Simulates.load (h : Simulates k k' α Inv Good) (o : Opts) (dir : BDir) (hist : FileHistory.History) (p : Props) :
    (bload o k.ops dir hist p).map α = bload o k'.ops dir hist p ∧ ∀ a, bload o k.ops dir hist p = .ok a → Inv a := by
  unfold bload
  cases analyze p.filename with
  | err => exact ⟨rfl, fun a ha => by cases ha⟩
  | panic => exact ⟨rfl, fun a ha => by cases ha⟩
  | ok q =>
    cases q with
    | none => exact ⟨rfl, fun a ha => by cases ha⟩
    | some q =>
      simp only [Res.bind_ok]
      cases ancestorsRev hist q o.maxPhase o.cumulative.isSome with
      | err => exact ⟨rfl, fun a ha => by cases ha⟩
      | panic => exact ⟨rfl, fun a ha => by cases ha⟩
      | ok rev => exact h.composeSrc dir rev.reverse

theorem Simulates.loadFile (h : Simulates k k' α Inv Good) (o : Opts) (st : BSt) (hist : FileHistory.History) (p : Props) (rid : Nat) :
    (bloadFile o k.ops st hist p rid).1 = (bloadFile o k'.ops st hist p rid).1 := by
  unfold bloadFile
  rw [← (h.load o st.dir hist p).1]
  cases bload o k.ops st.dir hist p <;> rfl

/-- what is seen of a log -/
def seen (α : S → T) (log : List (Props × S)) : List (Props × T) := log.map fun e => (e.1, α e.2)

theorem seen_length (α : S → T) (log : List (Props × S)) : (seen α log).length = log.length := List.length_map _

/-- A run of real objects is a run of what is seen of them. -/
theorem Simulates.reach (h : Simulates k k' α Inv Good) {o : Opts} {st : BSt} {log : List (Props × S)} {torn : List Props}
    (hr : RReach o k.ops Good st log torn) : BReach o k'.ops st (seen α log) torn := by
  induction hr with
  | start dir hn hf => exact .start dir hn hf
  | save shift st st' log torn rid s p _ hl hg hf hs ih =>
    rw [h.plan o shift st rid s hg] at hf
    rw [h.save o shift st rid s hg] at hs
    exact .save shift st st' _ torn rid (α s) p ih ((seen_length α log).trans_lt hl) hf hs
  | fail shift st st' log torn rid s r _ hl hg hf hs hp ih =>
    rw [h.plan o shift st rid s hg] at hf
    rw [h.save o shift st rid s hg] at hs
    exact .fail shift st st' _ torn rid (α s) r ih ((seen_length α log).trans_lt hl) hf hs hp
  | interrupt shift st log torn rid s name c f p n _ hl hg hp hf hc ih =>
    rw [h.plan o shift st rid s hg] at hp
    exact .interrupt shift st _ torn rid (α s) name c f p n ih ((seen_length α log).trans_lt hl) hp hf hc
  | load st log torn hist p rid _ hh hp ih =>
    rw [h.loadFile]
    exact .load st _ torn hist p rid ih hh hp
  | list st dir log torn _ hp ih => exact .list st dir _ torn ih hp
  | restart st log torn _ ih => exact .restart st _ torn ih
  | other st log torn r e _ he ht ih => exact .other st _ torn r (e.1, α e.2) ih (List.mem_map.mpr ⟨e, he, rfl⟩) ht

end
end Verif.History
