import Verif.Spec.WorkflowObject
import Verif.Lemmas.ShortcutObject
import Verif.Props.Compile
import Verif.Props.TranscriptObjects
import Verif.Props.TranscriptEnergy
import Verif.Props.ShortcutObject
import Verif.Props.Workflow
import Verif.Props.Norm
import Verif.Props.Units

/-! # Lemmas for C111 -/

set_option linter.unusedSectionVars false

namespace Flory

open Spec XReal

variable {G : Type} {M : ℕ}

theorem pack_grand {a : Gen.GrandCanonicalEnsembleCompiledAttrs} {x : AnyEnsemble} (h : SameGrandC a x) :
    a.pack = x := by
  obtain ⟨n, c⟩ := a
  obtain ⟨C, e, rfl, h1, h3⟩ := h
  dsimp only at h1 h3
  subst h1
  unfold Gen.GrandCanonicalEnsembleCompiledAttrs.pack
  congr 3
  funext i
  exact h3.get i

theorem pack_global {a : Gen.LinearGlobalConstraintCompiledAttrs} {x : AnyConsNew} (h : SameGlobalC a x) :
    a.pack = x := by
  obtain ⟨S, A, Cs, Ts, r, e, rfl, h1, h2, h3, h4, rfl, rfl, -⟩ := h
  subst h1 h2
  unfold Gen.LinearGlobalConstraintCompiledAttrs.pack
  congr 2
  · funext i j
    exact h3.get i j
  · funext i
    exact h4.get i

theorem ensemble_same {C : ℕ} {ens : TextEnsemble} (h : ens.Positive C) :
    1 ≤ C ∧ ∃ (o : InstObj AnyEnsemble) (es : EnsembleInst C), ens.object = o ∧
      (∀ kw, o.compiled kw = .ok ⟨C, es⟩) ∧ PositiveEnsemble es := by
  cases h with
  | @canonical phi a h hp =>
    have hr := canonical_init_rel C phi
    rw [h] at hr
    cases hn : CanonicalEnsemble.new C phi with
    | error e => rw [hn] at hr; exact hr.elim
    | ok o =>
      rw [hn] at hr
      refine ⟨?_, o.obj, .canonical ⟨o.phiMeans⟩, map_object (f := Gen.CanonicalEnsembleCompiledAttrs.pack)
        (fun _ _ => pack_canonical) (canonical_object_same hr), fun kw => ?_, fun i => ?_⟩
      · by_contra hC
        unfold CanonicalEnsemble.new at hn
        rw [if_pos (by omega)] at hn
        cases hn
      · rw [InstObj.compiled_eq]; rfl
      · have := hp i i.2
        rwa [hr.phiMeans.get i] at this
  | @grand z a h hp =>
    have hr := grand_init_rel C z
    rw [h] at hr
    cases hn : GrandCanonicalEnsemble.new C z with
    | error e => rw [hn] at hr; exact hr.elim
    | ok o =>
      rw [hn] at hr
      refine ⟨?_, o.obj, .grand ⟨o.scaledActivity⟩, map_object (f := Gen.GrandCanonicalEnsembleCompiledAttrs.pack)
        (fun _ _ => pack_grand) (grand_object_same hr), fun kw => ?_, fun i => ?_⟩
      · by_contra hC
        unfold GrandCanonicalEnsemble.new at hn
        rw [if_pos (by omega)] at hn
        cases hn
      · rw [InstObj.compiled_eq]; rfl
      · have := hp i i.2
        rwa [hr.scaledActivity.get i] at this

theorem constraints_same {C : ℕ} {cs : Option (List Gen.LinearGlobalConstraintAttrs)}
    (h : ∀ c ∈ cs.getD [], (∃ Cs Ts, Gen.LinearGlobalConstraint.init C Cs Ts = .ok c) ∧ c.num_cons ≠ 0) :
    (∀ N kw, (initConstraints N C kw (textConstraints cs)).2 = none ∧
      ∀ c ∈ (initConstraints N C kw (textConstraints cs)).1, c.numFeat = C) ∧
    ∀ o ∈ consObjs (textConstraints cs), ∀ kw x, o.impl kw = .ok x → NonEmpty x.2 ∧ NoLocal x.2 := by
  cases cs with
  | none =>
    refine ⟨fun N kw => ⟨rfl, fun c hc => ?_⟩, fun o ho => by simp [textConstraints, consObjs] at ho⟩
    rw [List.mem_singleton.mp hc]
    rfl
  | some cs =>
    have key : ∃ os : List (LinearConstraint C), cs.map (fun c =>
        (Gen.LinearGlobalConstraint.object c).map Gen.LinearGlobalConstraintCompiledAttrs.pack) =
          os.map LinearConstraint.obj ∧ ∀ o ∈ os, o.isGlobal = true ∧ o.numCons ≠ 0 := by
      have h : ∀ c ∈ cs, (∃ Cs Ts, Gen.LinearGlobalConstraint.init C Cs Ts = .ok c) ∧ c.num_cons ≠ 0 := h
      clear * - h
      induction cs with
      | nil => exact ⟨[], rfl, by simp⟩
      | cons c cs ih =>
        obtain ⟨os, h1, h2⟩ := ih fun c hc => h c (List.mem_cons_of_mem _ hc)
        obtain ⟨⟨Cs, Ts, hc⟩, hn⟩ := h c List.mem_cons_self
        have hr := global_init_rel C Cs Ts
        rw [hc] at hr
        cases ho : LinearConstraint.new true C Cs Ts with
        | error e => rw [ho] at hr; exact hr.elim
        | ok o =>
          rw [ho] at hr
          refine ⟨o :: os, ?_, ?_⟩
          · rw [List.map_cons, List.map_cons, h1,
              map_object (f := Gen.LinearGlobalConstraintCompiledAttrs.pack) (fun _ _ => pack_global)
                (global_object_same hr)]
          · intro x hx
            rcases List.mem_cons.mp hx with rfl | hx
            · exact ⟨hr.isGlobal, by rw [← hr.num_cons]; exact hn⟩
            · exact h2 x hx
    obtain ⟨os, h1, h2⟩ := key
    have e1 : textConstraints (some cs) = .many (os.map LinearConstraint.obj) := by
      show ConsArg.many _ = _
      rw [h1]
    rw [e1]
    refine ⟨fun N kw => ?_, fun o ho kw x hx => ?_⟩
    · rw [initConstraints_linear]
      refine ⟨rfl, fun c hc => ?_⟩
      obtain ⟨n, -, rfl⟩ := List.mem_map.mp hc
      rfl
    · obtain ⟨q, hq, rfl⟩ := List.mem_map.mp ho
      obtain ⟨k1, k2⟩ := h2 q hq
      unfold LinearConstraint.obj at hx
      obtain rfl := Except.ok.inj hx
      dsimp only
      rw [if_pos k1]
      exact ⟨k2, trivial⟩

theorem reachedFree_interaction {C : ℕ} {a : Gen.FloryHugginsAttrs} (h : ReachedFree C a) :
    ReachedFH C a.interaction := by
  have hinit : ∀ {chis sizes} {a : Gen.FloryHugginsAttrs}, Gen.FloryHuggins.init C chis sizes = .ok a →
      ReachedFH C a.interaction := by
    intro chis sizes a h
    unfold Gen.FloryHuggins.init at h
    obtain ⟨i, hi, h⟩ := bind_eq_ok.mp h
    obtain ⟨e, he, h⟩ := bind_eq_ok.mp h
    dsimp only at h
    split at h
    · cases h
    · cases h
      exact .init hi
  induction h with
  | init h => exact hinit h
  | uniform h =>
    unfold Gen.FloryHuggins.from_uniform at h
    obtain ⟨o, ho, h⟩ := bind_eq_ok.mp h
    obtain ⟨i, hi, h⟩ := bind_eq_ok.mp h
    cases h
    exact .uniform (hinit ho) hi
  | random hr h =>
    unfold Gen.FloryHuggins.from_random_normal at h
    obtain ⟨o, ho, h⟩ := bind_eq_ok.mp h
    obtain ⟨i, hi, h⟩ := bind_eq_ok.mp h
    cases h
    exact .random (hinit ho) hr hi
  | chis _ h ih =>
    unfold Gen.FloryHuggins.set_chis at h
    obtain ⟨i, hi, h⟩ := bind_eq_ok.mp h
    cases h
    exact .setChis ih hi
  | sizes _ h ih =>
    unfold Gen.FloryHuggins.set_sizes at h
    obtain ⟨i, hi, h⟩ := bind_eq_ok.mp h
    cases h
    exact ih

end Flory
