import Verif.Model.Alias
import Verif.Props.RunMean
import Verif.Props.Demo

/-!
# C46: what finders share with the objects they were made from
-/

set_option linter.unusedSectionVars false

namespace Flory

open Spec

/-- Classes whose arrays belong to the compiled instance or cannot be written to. -/
def Cls.owned (c : Cls) : Prop := c.copies = true ∨ c.writable = false

theorem Mem.allocAll_spec (m : Mem) (cs : List (ℕ → ℝ)) :
    (∀ a, a < m.next → (m.allocAll cs).1.cell a = m.cell a) ∧ m.next ≤ (m.allocAll cs).1.next ∧
    (∀ a ∈ (m.allocAll cs).2, m.next ≤ a ∧ a < (m.allocAll cs).1.next) ∧
    (m.allocAll cs).2.map (m.allocAll cs).1.cell = cs := by
  induction cs generalizing m with
  | nil => exact ⟨fun _ _ => rfl, le_rfl, by simp [allocAll], rfl⟩
  | cons c cs ih =>
    obtain ⟨h1, h2, h3, h4⟩ := ih (m.alloc c).1
    have hn : (m.alloc c).1.next = m.next + 1 := rfl
    have ha : (m.alloc c).2 = m.next := rfl
    rw [hn] at h1 h2 h3
    simp only [allocAll]
    refine ⟨fun a hlt => ?_, by omega, fun a hmem => ?_, ?_⟩
    · rw [h1 a (by omega)]
      show (if a = m.next then c else m.cell a) = _
      rw [if_neg (by omega)]
    · rcases List.mem_cons.mp hmem with rfl | hmem
      · rw [ha]; exact ⟨le_rfl, by omega⟩
      · have := h3 a hmem; exact ⟨by omega, this.2⟩
    · rw [List.map_cons, h4, ha, h1 _ (by omega)]
      show (if m.next = m.next then c else m.cell _) :: cs = _
      rw [if_pos rfl]

/-- Every address is allocated; an array of an object users can write to is neither an array of a
read-only object nor one of an instance of an `owned` class. -/
structure Separate (w : World) : Prop where
  objs : ∀ o ∈ w.objs, ∀ a ∈ o.arr, a < w.mem.next
  insts : ∀ x ∈ w.insts, ∀ a ∈ x.arr, a < w.mem.next
  readOnly : ∀ o ∈ w.objs, o.cls.writable = true → ∀ o' ∈ w.objs, o'.cls.writable = false →
    ∀ a ∈ o.arr, a ∉ o'.arr
  owned : ∀ o ∈ w.objs, o.cls.writable = true → ∀ x ∈ w.insts, x.cls.owned → ∀ a ∈ o.arr, a ∉ x.arr

theorem Separate.start : Separate World.start := ⟨by simp [World.start], by simp [World.start],
  by simp [World.start], by simp [World.start]⟩

theorem World.compile_spec (o : ObjRef) (m : Mem) (scalars : List ℝ) :
    let r := o.compile m scalars
    (∀ a, a < m.next → r.1.cell a = m.cell a) ∧ m.next ≤ r.1.next ∧ r.2.cls = o.cls ∧
    r.2.arr.map r.1.cell = o.arr.map m.cell ∧
    (o.cls.copies = true → ∀ a ∈ r.2.arr, m.next ≤ a ∧ a < r.1.next) ∧
    (o.cls.copies = false → r.2.arr = o.arr ∧ r.1 = m) := by
  unfold ObjRef.compile
  by_cases h : o.cls.copies = true
  · obtain ⟨h1, h2, h3, h4⟩ := m.allocAll_spec (o.arr.map m.cell)
    rw [if_pos h]
    exact ⟨h1, h2, rfl, h4, fun _ => h3, fun hf => absurd h (by simp [hf])⟩
  · rw [if_neg h]
    exact ⟨fun _ _ => rfl, le_rfl, rfl, rfl, fun hf => absurd hf h, fun _ => ⟨rfl, rfl⟩⟩

theorem Separate.step {w : World} (hw : Separate w) (op : UserOp) : Separate (w.step op) := by
  cases op with
  | create cls contents =>
    obtain ⟨h1, h2, h3, -⟩ := w.mem.allocAll_spec contents
    simp only [World.step]
    refine ⟨fun o ho a ha => ?_, fun x hx a ha => lt_of_lt_of_le (hw.insts x hx a ha) h2,
      fun o ho hwr o' ho' hro a ha ha' => ?_, fun o ho hwr x hx hown a ha ha' => ?_⟩
    · rcases List.mem_append.mp ho with ho | ho
      · exact lt_of_lt_of_le (hw.objs o ho a ha) h2
      · rw [List.mem_singleton.mp ho] at ha
        exact (h3 a ha).2
    · rcases List.mem_append.mp ho with ho | ho <;> rcases List.mem_append.mp ho' with ho' | ho'
      · exact hw.readOnly o ho hwr o' ho' hro a ha ha'
      · rw [List.mem_singleton.mp ho'] at ha'
        have := hw.objs o ho a ha
        have := (h3 a ha').1
        omega
      · rw [List.mem_singleton.mp ho] at ha
        have := hw.objs o' ho' a ha'
        have := (h3 a ha).1
        omega
      · rw [List.mem_singleton.mp ho] at hwr
        rw [List.mem_singleton.mp ho'] at hro
        simp [hwr] at hro
    · rcases List.mem_append.mp ho with ho | ho
      · exact hw.owned o ho hwr x hx hown a ha ha'
      · rw [List.mem_singleton.mp ho] at ha
        have := hw.insts x hx a ha'
        have := (h3 a ha).1
        omega
  | poke k j idx x =>
    simp only [World.step]
    split
    · exact hw
    · split
      · split
        · exact hw
        · exact ⟨hw.objs, hw.insts, hw.readOnly, hw.owned⟩
      · exact hw
  | assign k j content =>
    simp only [World.step]
    split
    · exact hw
    · rename_i o hk
      have hok : o ∈ w.objs := List.mem_of_getElem? hk
      have key : ∀ o' ∈ w.objs.set k { o with arr := o.arr.set j (w.mem.alloc content).2 },
          ∃ o₀ ∈ w.objs, o'.cls = o₀.cls ∧ ∀ a ∈ o'.arr, a ∈ o₀.arr ∨ a = w.mem.next := by
        intro o' ho'
        rcases List.mem_or_eq_of_mem_set ho' with h | h
        · exact ⟨o', h, rfl, fun a ha => Or.inl ha⟩
        · refine ⟨o, hok, by rw [h], fun a ha => ?_⟩
          rw [h] at ha
          exact List.mem_or_eq_of_mem_set ha
      have hn : (w.mem.alloc content).1.next = w.mem.next + 1 := rfl
      -- the new address belongs to one object only
      have uniq : ∀ o' ∈ w.objs.set k { o with arr := o.arr.set j (w.mem.alloc content).2 },
          w.mem.next ∈ o'.arr → o'.cls = o.cls := by
        intro o' ho' hmem
        rcases List.mem_or_eq_of_mem_set ho' with h | h
        · exact absurd (hw.objs o' h _ hmem) (lt_irrefl _)
        · rw [h]
      refine ⟨fun o' ho' a ha => ?_, fun x hx a ha => lt_trans (hw.insts x hx a ha) (Nat.lt_succ_self _),
        fun o₁ h₁ hwr o₂ h₂ hro a ha ha' => ?_, fun o₁ h₁ hwr x hx hown a ha ha' => ?_⟩
      · obtain ⟨o₀, h0, -, h⟩ := key o' ho'
        show a < w.mem.next + 1
        rcases h a ha with h | h
        · have := hw.objs o₀ h0 a h; omega
        · omega
      · obtain ⟨p₁, m₁, c₁, q₁⟩ := key o₁ h₁
        obtain ⟨p₂, m₂, c₂, q₂⟩ := key o₂ h₂
        rcases q₁ a ha with e1 | e1
        · rcases q₂ a ha' with e2 | e2
          · exact hw.readOnly p₁ m₁ (c₁ ▸ hwr) p₂ m₂ (c₂ ▸ hro) a e1 e2
          · have := hw.objs p₁ m₁ a e1; omega
        · subst e1
          rw [uniq o₁ h₁ ha] at hwr
          rw [uniq o₂ h₂ ha'] at hro
          rw [hwr] at hro
          cases hro
      · obtain ⟨p₁, m₁, c₁, q₁⟩ := key o₁ h₁
        rcases q₁ a ha with e1 | e1
        · exact hw.owned p₁ m₁ (c₁ ▸ hwr) x hx hown a e1 ha'
        · have := hw.insts x hx a ha'; omega
  | compile k scalars =>
    simp only [World.step]
    split
    · exact hw
    · rename_i o hk
      have hok : o ∈ w.objs := List.mem_of_getElem? hk
      obtain ⟨h1, h2, h3, -, h4, h5⟩ := World.compile_spec o w.mem scalars
      refine ⟨fun o' ho' a ha => lt_of_lt_of_le (hw.objs o' ho' a ha) h2, fun x hx a ha => ?_,
        hw.readOnly, fun o' ho' hwr x hx hown a ha ha' => ?_⟩
      · rcases List.mem_append.mp hx with hx | hx
        · exact lt_of_lt_of_le (hw.insts x hx a ha) h2
        · rw [List.mem_singleton.mp hx] at ha
          by_cases hc : o.cls.copies = true
          · exact (h4 hc a ha).2
          · obtain ⟨e1, e2⟩ := h5 (by simpa using hc)
            rw [e1] at ha
            exact lt_of_lt_of_le (hw.objs o hok a ha) h2
      · rcases List.mem_append.mp hx with hx | hx
        · exact hw.owned o' ho' hwr x hx hown a ha ha'
        · rw [List.mem_singleton.mp hx] at ha' hown
          by_cases hc : o.cls.copies = true
          · have := (h4 hc a ha').1
            have := hw.objs o' ho' a ha
            omega
          · obtain ⟨e1, -⟩ := h5 (by simpa using hc)
            rw [e1] at ha'
            rw [h3] at hown
            rcases hown with hown | hown
            · exact hc hown
            · exact hw.readOnly o' ho' hwr o hok hown a ha ha'

theorem Separate.steps {w : World} (hw : Separate w) (ops : List UserOp) : Separate (w.steps ops) := by
  induction ops generalizing w with
  | nil => exact hw
  | cons op ops ih => exact ih (hw.step op)

theorem getD_of_lt {α : Type} (l : List α) (d : α) {k : ℕ} (hk : k < l.length) : l.getD k d = l[k] := by
  rw [List.getD_eq_getElem?_getD, List.getElem?_eq_getElem hk]; rfl

theorem getD_map_cell (m m' : Mem) (l l' : List ℕ) (h : l.map m.cell = l'.map m'.cell) (k : ℕ)
    (hk : k < l.length) : m.cell (l.getD k 0) = m'.cell (l'.getD k 0) := by
  have hlen : l.length = l'.length := by simpa using congrArg List.length h
  have e1 : (l.map m.cell)[k]'(by simpa using hk) = m.cell l[k] := by simp
  have e2 : (l'.map m'.cell)[k]'(by simpa using hlen ▸ hk) = m'.cell l'[k] := by simp
  rw [getD_of_lt _ _ hk, getD_of_lt _ _ (hlen ▸ hk), ← e1, ← e2]
  simp only [h]

/-- Instances of an `owned` class keep their arrays. -/
theorem owned_step {w : World} (hw : Separate w) {n : ℕ} {x : InstRef} (hx : w.insts[n]? = some x)
    (hown : x.cls.owned) (op : UserOp) :
    (w.step op).insts[n]? = some x ∧ ∀ a ∈ x.arr, (w.step op).mem.cell a = w.mem.cell a := by
  have hmem : x ∈ w.insts := List.mem_of_getElem? hx
  have hlt : n < w.insts.length := by
    by_contra hc
    rw [List.getElem?_eq_none (by omega)] at hx
    cases hx
  cases op with
  | create cls contents =>
    obtain ⟨h1, -⟩ := w.mem.allocAll_spec contents
    exact ⟨hx, fun a ha => h1 a (hw.insts x hmem a ha)⟩
  | poke k j idx y =>
    simp only [World.step]
    split
    · exact ⟨hx, fun _ _ => rfl⟩
    · rename_i o hk
      split
      · rename_i hwr
        split
        · exact ⟨hx, fun _ _ => rfl⟩
        · rename_i b hb
          refine ⟨hx, fun a ha => ?_⟩
          have hne : a ≠ b := by
            rintro rfl
            exact hw.owned o (List.mem_of_getElem? hk) hwr x hmem hown a (List.mem_of_getElem? hb) ha
          show (if a = b then _ else w.mem.cell a) = _
          rw [if_neg hne]
      · exact ⟨hx, fun _ _ => rfl⟩
  | assign k j content =>
    simp only [World.step]
    split
    · exact ⟨hx, fun _ _ => rfl⟩
    · refine ⟨hx, fun a ha => ?_⟩
      have := hw.insts x hmem a ha
      show (if a = w.mem.next then _ else w.mem.cell a) = _
      rw [if_neg (by omega)]
  | compile k scalars =>
    simp only [World.step]
    split
    · exact ⟨hx, fun _ _ => rfl⟩
    · rename_i o hk
      obtain ⟨h1, -⟩ := World.compile_spec o w.mem scalars
      exact ⟨(List.getElem?_append_left hlt).trans hx, fun a ha => h1 a (hw.insts x hmem a ha)⟩

/-- The value of an instance depends only on the contents of its arrays, if there are as many as its
class needs. -/
theorem read_congr {x : InstRef} {m m' : Mem} (hne : x.arr ≠ [])
    (hlin : ∀ g A S, x.cls = .linear g A S → 2 ≤ x.arr.length)
    (h : ∀ a ∈ x.arr, m'.cell a = m.cell a) : x.read m' = x.read m := by
  have key : ∀ k, k < x.arr.length → m'.cell (x.arr.getD k 0) = m.cell (x.arr.getD k 0) := by
    intro k hk
    rw [getD_of_lt _ _ hk]
    exact h _ (List.getElem_mem hk)
  have h0 := key 0 (List.length_pos_iff.mpr hne)
  obtain ⟨cls, arr, sc⟩ := x
  cases cls with
  | linear g A S =>
    have h1 := key 1 (hlin g A S rfl)
    simp only [InstRef.read, h0, h1]
  | _ => simp only [InstRef.read, h0]

/-- **C46**, what holds.  However objects have been created and changed before (`pre`), what an instance
compiled from a `FloryHugginsInteraction`, an ideal gas (plain or polydisperse) or a
`CanonicalEnsemble` contains does not change in any later history (`post`) of in-place changes,
assignments, creations and compilations.  Missing: the other classes, for which it is false (below). -/
theorem C46_owned_partial (pre post : List UserOp) (k : ℕ) (scalars : List ℝ) {o : ObjRef}
    (ho : (World.start.steps pre).objs[k]? = some o) (harr : o.arr ≠ [])
    (hcls : match o.cls with
      | .fh _ | .gas _ | .poly _ | .canonical _ => True
      | .block _ | .grand _ | .linear .. => False) :
    ∃ x, (World.start.steps (pre ++ [.compile k scalars])).insts.getLast? = some x ∧ x.cls = o.cls ∧
      x.read (World.start.steps (pre ++ [.compile k scalars] ++ post)).mem =
        (⟨o.cls, o.arr, scalars⟩ : InstRef).read (World.start.steps pre).mem := by
  have hown : o.cls.owned := by
    cases hc : o.cls <;> simp_all [Cls.owned, Cls.copies, Cls.writable]
  have hsep := Separate.start.steps pre
  set w := World.start.steps pre with hw
  have hstep : World.start.steps (pre ++ [.compile k scalars]) = w.step (.compile k scalars) := by
    simp [World.steps, hw, List.foldl_append]
  have hpost : World.start.steps (pre ++ [.compile k scalars] ++ post) =
      (w.step (.compile k scalars)).steps post := by
    simp [World.steps, hw, List.foldl_append]
  have hcomp : w.step (.compile k scalars) =
      { w with mem := (o.compile w.mem scalars).1, insts := w.insts ++ [(o.compile w.mem scalars).2] } := by
    simp only [World.step, ho]
  obtain ⟨-, -, h3, h4, -, -⟩ := World.compile_spec o w.mem scalars
  set x := (o.compile w.mem scalars).2 with hx
  have hsc : x.scalars = scalars := by
    rw [hx]; unfold ObjRef.compile; split <;> rfl
  have hlen : x.arr.length = o.arr.length := by simpa using congrArg List.length h4
  have hxne : x.arr ≠ [] := by
    intro hn
    rw [hn] at hlen
    exact harr (List.length_eq_zero_iff.mp hlen.symm)
  have keep : ∀ (post : List UserOp) (v : World), Separate v → v.insts[w.insts.length]? = some x →
      ∀ a ∈ x.arr, (v.steps post).mem.cell a = v.mem.cell a := by
    intro post
    induction post with
    | nil => intro v _ _ a _; rfl
    | cons op post ih =>
      intro v hv hvx a ha
      obtain ⟨e1, e2⟩ := owned_step hv hvx (h3 ▸ hown) op
      exact (ih (v.step op) (hv.step op) e1 a ha).trans (e2 a ha)
  have hnl : ∀ g A S, o.cls ≠ .linear g A S := by
    intro g A S he; rw [he] at hcls; exact hcls
  refine ⟨x, by rw [hstep, hcomp]; simp, h3, ?_⟩
  rw [hpost]
  have hk := keep post _ (hsep.step _) (by rw [hcomp]; simp)
  rw [read_congr hxne (fun g A S he => absurd (h3 ▸ he) (hnl g A S)) hk, hcomp]
  have h0 := getD_map_cell _ _ _ _ h4 0 (List.length_pos_iff.mpr hxne)
  simp only [InstRef.read, h3, hsc]
  cases hc : o.cls with
  | linear g A S => exact absurd hc (hnl g A S)
  | _ => simp only [h0]

/-- Elements of a matrix row after row. -/
noncomputable def Spec.rowMajor {r n : ℕ} (A : Mat r n ℝ) : ℕ → ℝ :=
  fun k => (List.ofFn fun i => List.ofFn (A i)).flatten.getD k 0

theorem asMat_rowMajor {r n : ℕ} (A : Mat r n ℝ) : asMat r n (rowMajor A) = A := by
  funext i j
  have hlt : (i : ℕ) * n + j < r * n := by
    have h1 : (i : ℕ) * n + n ≤ r * n := by
      have := Nat.mul_le_mul_right n (Nat.succ_le_of_lt i.isLt)
      rwa [Nat.succ_mul] at this
    have := j.isLt
    omega
  have hn : 0 < n := Nat.lt_of_le_of_lt (Nat.zero_le _) j.isLt
  have hfl : (List.ofFn fun i => List.ofFn (A i)).flatten =
      List.ofFn fun k : Fin (r * n) => A ⟨k / n, Nat.div_lt_of_lt_mul (k.isLt.trans_eq (mul_comm r n))⟩
        ⟨k % n, Nat.mod_lt _ hn⟩ := by
    rw [List.ofFn_mul]
    congr 1
    refine List.ofFn_inj.mpr (funext fun i => List.ofFn_inj.mpr (funext fun j => ?_))
    congr 1
    · apply Fin.ext
      show (i : ℕ) = (i * n + j) / n
      rw [mul_comm, Nat.mul_add_div hn, Nat.div_eq_of_lt j.isLt, add_zero]
    · apply Fin.ext
      show (j : ℕ) = (i * n + j) % n
      rw [mul_comm, Nat.mul_add_mod, Nat.mod_eq_of_lt j.isLt]
  show (List.flatten _).getD _ 0 = _
  rw [hfl, getD_of_lt _ _ (by simpa using hlt)]
  simp only [List.getElem_ofFn]
  congr 1
  · apply Fin.ext
    show ((i : ℕ) * n + j) / n = i
    rw [mul_comm, Nat.mul_add_div hn, Nat.div_eq_of_lt j.isLt, add_zero]
  · apply Fin.ext
    show ((i : ℕ) * n + j) % n = j
    rw [mul_comm, Nat.mul_add_mod, Nat.mod_eq_of_lt j.isLt]

theorem asVec_getD {n : ℕ} (v : Vec n ℝ) : asVec n (fun k => (List.ofFn v).getD k 0) = v := by
  funext i
  show (List.ofFn v).getD i 0 = v i
  rw [getD_of_lt _ _ (by simp)]
  simp

/-- An object that is created and compiled at once. -/
theorem fresh_instance (pre : List UserOp) (cls : Cls) (contents : List (ℕ → ℝ)) (scalars : List ℝ) :
    ∃ x, (World.start.steps (pre ++ [.create cls contents,
        .compile (World.start.steps pre).objs.length scalars])).insts.getLast? = some x ∧
      x.cls = cls ∧ x.scalars = scalars ∧ x.arr.map (World.start.steps (pre ++ [.create cls contents,
        .compile (World.start.steps pre).objs.length scalars])).mem.cell = contents := by
  set w := World.start.steps pre with hw
  have e : World.start.steps (pre ++ [.create cls contents, .compile w.objs.length scalars]) =
      (w.step (.create cls contents)).step (.compile w.objs.length scalars) := by
    simp [World.steps, hw, List.foldl_append]
  rw [e]
  obtain ⟨-, -, -, h4⟩ := w.mem.allocAll_spec contents
  obtain ⟨-, -, h3, h5, -, -⟩ := World.compile_spec ⟨cls, (w.mem.allocAll contents).2⟩
    (w.mem.allocAll contents).1 scalars
  refine ⟨((⟨cls, (w.mem.allocAll contents).2⟩ : ObjRef).compile (w.mem.allocAll contents).1 scalars).2,
    by simp [World.step], h3, ?_, ?_⟩
  · unfold ObjRef.compile; split <;> rfl
  · have : ((w.step (.create cls contents)).step (.compile w.objs.length scalars)).mem =
        ((⟨cls, (w.mem.allocAll contents).2⟩ : ObjRef).compile (w.mem.allocAll contents).1 scalars).1 := by
      simp [World.step]
    rw [this, h5, h4]

/-- **C46**, what compiled instances show at first: whatever happened before, the instance compiled from
a new object has the data the object was created with (matrices row after row). -/
theorem C46_shows (pre : List UserOp) : let k := (World.start.steps pre).objs.length
    let shows := fun (cls : Cls) (contents : List (ℕ → ℝ)) (scalars : List ℝ) (v : InstVal) =>
      let w := World.start.steps (pre ++ [.create cls contents, .compile k scalars])
      ∃ x, w.insts.getLast? = some x ∧ x.read w.mem = v
    (∀ C (chis : Mat C C ℝ) (coef : ℝ), shows (.fh C) [rowMajor chis] [coef]
      (.interaction ⟨C, ⟨chis, coef⟩⟩)) ∧
    (∀ S (chis : Mat S S ℝ) (coef : ℝ), shows (.block S) [rowMajor chis] [coef]
      (.interaction ⟨S, ⟨chis, coef⟩⟩)) ∧
    (∀ C (sizes : Vec C ℝ), shows (.gas C) [fun i => (List.ofFn sizes).getD i 0] []
      (.entropy ⟨C, C, .ideal ⟨sizes⟩⟩)) ∧
    (∀ S (per : Vec S ℕ) (sizes : Vec (∑ r, per r) ℝ), shows (.poly per)
      [fun i => (List.ofFn sizes).getD i 0] [] (.entropy ⟨_, S, .poly ⟨sizes, per⟩⟩)) ∧
    (∀ C (phi : Vec C ℝ), shows (.canonical C) [fun i => (List.ofFn phi).getD i 0] []
      (.ensemble ⟨C, .canonical ⟨phi⟩⟩)) ∧
    (∀ C (act : Vec C ℝ), shows (.grand C) [fun i => (List.ofFn act).getD i 0] []
      (.ensemble ⟨C, .grand ⟨act⟩⟩)) ∧
    ∀ A S (Cs : Mat A S ℝ) (Ts : Vec A ℝ) (acc el : ℝ),
      shows (.linear false A S) [rowMajor Cs, fun i => (List.ofFn Ts).getD i 0] [acc, el]
        (.cons ⟨S, .loc A Cs Ts acc el⟩) ∧
      shows (.linear true A S) [rowMajor Cs, fun i => (List.ofFn Ts).getD i 0] [acc, el]
        (.cons ⟨S, .glob A Cs Ts acc el⟩) := by
  intro k shows
  have key : ∀ cls contents scalars v, (∀ (x : InstRef) (m : Mem), x.cls = cls → x.scalars = scalars →
      x.arr.map m.cell = contents → x.read m = v) → shows cls contents scalars v := by
    intro cls contents scalars v h
    obtain ⟨x, h1, h2, h3, h4⟩ := fresh_instance pre cls contents scalars
    exact ⟨x, h1, h x _ h2 h3 h4⟩
  have one : ∀ {arr : List ℕ} {m : Mem} {c : ℕ → ℝ}, arr.map m.cell = [c] → m.cell (arr.getD 0 0) = c := by
    intro arr m c h
    match arr, h with
    | [a], h => simpa using h
  have two : ∀ {arr : List ℕ} {m : Mem} {c d : ℕ → ℝ}, arr.map m.cell = [c, d] →
      m.cell (arr.getD 0 0) = c ∧ m.cell (arr.getD 1 0) = d := by
    intro arr m c d h
    match arr, h with
    | [a, b], h => simpa using h
  refine ⟨fun C chis coef => key _ _ _ _ ?_, fun C chis coef => key _ _ _ _ ?_,
    fun C v => key _ _ _ _ ?_, fun S per v => key _ _ _ _ ?_, fun C v => key _ _ _ _ ?_,
    fun C v => key _ _ _ _ ?_, fun A S Cs Ts acc el => ⟨key _ _ _ _ ?_, key _ _ _ _ ?_⟩⟩ <;>
  rintro ⟨cls, arr, sc⟩ m rfl rfl h
  · simp only [InstRef.read, one h, asMat_rowMajor]
    rfl
  · simp only [InstRef.read, one h, asMat_rowMajor]
    rfl
  · simp only [InstRef.read, one h, asVec_getD]
  · simp only [InstRef.read, one h, asVec_getD]
  · simp only [InstRef.read, one h, asVec_getD]
  · simp only [InstRef.read, one h, asVec_getD]
  · obtain ⟨h0, h1⟩ := two h
    simp only [InstRef.read, h0, h1, asVec_getD, asMat_rowMajor]
    rfl
  · obtain ⟨h0, h1⟩ := two h
    simp only [InstRef.read, h0, h1, asVec_getD, asMat_rowMajor]
    rfl

/-- **C46** is false for the other classes: the arrays of block interactions, grand canonical
ensembles and linear constraints are the arrays of the compiled instances.  As long as no property is
assigned, the instance shows whatever the user writes into them: after any in-place changes its
arrays have the contents the user's arrays have, and every such change arrives. -/
theorem C46_shared (pre : List UserOp) (k : ℕ) (scalars : List ℝ) {o : ObjRef}
    (ho : (World.start.steps pre).objs[k]? = some o)
    (hcls : match o.cls with
      | .block _ | .grand _ | .linear .. => True
      | .fh _ | .gas _ | .poly _ | .canonical _ => False)
    {j a : ℕ} (ha : o.arr[j]? = some a) (idx : ℕ) (y : ℝ) :
    ∃ x, (World.start.steps (pre ++ [.compile k scalars])).insts.getLast? = some x ∧
      x.arr[j]? = some a ∧
      (World.start.steps (pre ++ [.compile k scalars, .poke k j idx y])).mem.cell a idx = y := by
  have hc1 : o.cls.copies = false := by cases hc : o.cls <;> simp_all [Cls.copies]
  have hc2 : o.cls.writable = true := by cases hc : o.cls <;> simp_all [Cls.writable]
  set w := World.start.steps pre with hw
  have e1 : World.start.steps (pre ++ [.compile k scalars]) = w.step (.compile k scalars) := by
    simp [World.steps, hw, List.foldl_append]
  have e2 : World.start.steps (pre ++ [.compile k scalars, .poke k j idx y]) =
      (w.step (.compile k scalars)).step (.poke k j idx y) := by
    simp [World.steps, hw, List.foldl_append]
  have e3 : w.step (.compile k scalars) = { w with insts := w.insts ++ [⟨o.cls, o.arr, scalars⟩] } := by
    simp [World.step, ho, ObjRef.compile, hc1]
  refine ⟨⟨o.cls, o.arr, scalars⟩, by rw [e1, e3]; simp, ha, ?_⟩
  rw [e2, e3]
  simp [World.step, ho, hc2, ha, Mem.write]

namespace Demo

/-- One component with a grand canonical ensemble, two compartments. -/
noncomputable def envG (es : GrandC 1 ℝ) : RunEnv 1 1 2 ℝ Unit := { env1 with es := es.toI 2 }

/-- Zero fields. -/
noncomputable def stateG : State 1 1 2 ℝ Unit := { state1 with omegas := fun _ _ => 0 }

/-- The user creates a grand canonical ensemble with activity `a`, and a finder. -/
def before (a : ℝ) : List UserOp := [.create (.grand 1) [fun _ => a], .compile 0 []]

end Demo

/-- One step at zero field returns the activity as volume fraction. -/
theorem grand_step (es : GrandC 1 ℝ) :
    ∃ s' ph d, runImpl (Demo.envG es) 1 (1 / 100000) 10000 Demo.stateG 0 = (s', .ok (ph, d)) ∧
      ∀ q, ph.fractions q 0 = es.scaledActivity 0 := by
  have hen : IsIdealGas (Demo.envG es).en (fun _ => (1 : ℝ)) id :=
    (⟨fun _ => 1⟩ : IdealC 1).isIdealGas (M := 2)
  have hthr : (Demo.envG es).params.killThreshold = 0 := rfl
  obtain ⟨s', ph, d, h⟩ := run_ok (e := Demo.envG es) (tol := 1 / 100000) (maxSteps := 1)
    (interval := 10000) (rngZero_ok ℝ) hen (es.total (M := 2)) le_rfl (by rw [hthr]; norm_num)
    (by rw [hthr]; norm_num) (by simp [Demo.envG, Demo.env1, Demo.params]) rfl (by norm_num)
    (by norm_num) Demo.stateG 0 (by simp [Demo.stateG, Demo.state1])
    (Or.inl ⟨0, by rw [hthr]; simp [Demo.stateG, Demo.state1]⟩)
  refine ⟨s', ph, d, h, ?_⟩
  obtain ⟨tracker, inner, ts, t, c, ht, hi, hf⟩ := run_facts (e := Demo.envG es) le_rfl h
  have htr : tracker = 1 := by
    have : stepsTracker 1 10000 = .ok 1 := by
      unfold stepsTracker
      norm_num [Int.ceil_eq_iff]
    exact Except.ok.inj (ht.symm.trans this)
  subst htr
  have hin : inner = 1 := by
    have : stepsInner 1 1 = .ok 1 := by
      unfold stepsInner
      norm_num
    exact Except.ok.inj (hi.symm.trans this)
  subst hin
  have hts : ts = [] := by
    have := hf.count
    simpa using this
  subst hts
  obtain ⟨s₀, b₀, c1, c2, -, -⟩ := hf.chain.last
  cases c1
  cases c2 with
  | more h1 _ => exact absurd h1.pos (lt_irrefl 0)
  | one hp =>
    have hF := iterate_facts hp
    have hsrc : Source (Demo.envG es) Demo.stateG ph d 0 0 Demo.stateG t :=
      hf.source (rngZero_ok ℝ) le_rfl hp rfl fun _ _ _ h => h
    obtain ⟨-, -, hmk, -, -, hom⟩ := hF.near (by simp [Demo.envG, Demo.env1, Demo.params])
      (by norm_num [Demo.envG, Demo.env1, Demo.params]) (x := 0) (by simp [Demo.stateG, Demo.state1])
      (by rw [hthr]; norm_num) (by simp [Demo.stateG, Demo.state1])
    intro q
    obtain ⟨m, h1, -, h3⟩ := hsrc.rows q
    rw [h3, hF.phis_eq hen es.scales, h1, hom]
    simp [Demo.stateG]

/-- **C46** is false, seen from the results: a finder was created with activity `a`; after the user
writes `y ≠ a` into the array of their ensemble, the next step of the finder returns `y` as the volume
fraction, not `a`. -/
theorem C46_grand_wrong (a y : ℝ) (hne : y ≠ a) :
    ∃ x, (World.start.steps (Demo.before a)).insts = [x] ∧
      ∃ es es' : GrandC 1 ℝ,
        x.read (World.start.steps (Demo.before a)).mem = .ensemble ⟨1, .grand es⟩ ∧
        x.read (World.start.steps (Demo.before a ++ [.poke 0 0 0 y])).mem = .ensemble ⟨1, .grand es'⟩ ∧
        ∃ s₁ s₂ ph₁ ph₂ d₁ d₂,
          runImpl (Demo.envG es) 1 (1 / 100000) 10000 Demo.stateG 0 = (s₁, .ok (ph₁, d₁)) ∧
          runImpl (Demo.envG es') 1 (1 / 100000) 10000 Demo.stateG 0 = (s₂, .ok (ph₂, d₂)) ∧
          ∀ p q, ph₁.fractions p 0 = a ∧ ph₂.fractions q 0 = y ∧ ph₁.fractions p 0 ≠ ph₂.fractions q 0 := by
  obtain ⟨s₁, ph₁, d₁, e1, f1⟩ := grand_step ⟨fun _ => a⟩
  obtain ⟨s₂, ph₂, d₂, e2, f2⟩ := grand_step ⟨fun _ => y⟩
  refine ⟨⟨.grand 1, [0], []⟩, rfl, ⟨fun _ => a⟩, ⟨fun _ => y⟩, rfl, ?_, s₁, s₂, ph₁, ph₂, d₁, d₂, e1,
    e2, fun p q => ⟨f1 p, f2 q, by rw [f1, f2]; exact hne.symm⟩⟩
  have : asVec 1 (fun i => if i = 0 then y else a) = fun _ => y := by
    funext i
    rw [Subsingleton.elim i 0]
    rfl
  rw [← this]
  rfl

/-- Non-vacuity of `C46_owned_partial`: an interaction matrix is created, changed in place, and
replaced. -/
example : ∃ o, (World.start.steps [.create (.fh 2) [fun _ => 3], .poke 0 0 1 5,
    .assign 0 0 (fun _ => 2)]).objs[0]? = some o ∧ o.arr ≠ [] ∧ o.cls = .fh 2 :=
  ⟨⟨.fh 2, [1]⟩, rfl, by simp, rfl⟩

/-- Non-vacuity of `C46_shared`: a linear constraint with its two arrays. -/
example : ∃ o, (World.start.steps [.create (.linear true 1 2) [fun _ => 1, fun _ => 0]]).objs[0]? =
    some o ∧ o.arr[1]? = some 1 ∧ o.cls = .linear true 1 2 :=
  ⟨⟨.linear true 1 2, [0, 1]⟩, rfl, rfl, rfl⟩

end Flory
