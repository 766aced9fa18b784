import Verif.Spec.Options

namespace Shutter.Options

open Spec

/-- Proof device: the texts given set in a flag. -/
def applyAll {V : Type} (f : Flag V) (ss : List Txt) : Option (Flag V) :=
  (setAll f.set f.value ss).map fun v => { f with value := v, changed := f.changed || !ss.isEmpty }

/-- Proof device: `mapM`, by plain recursion -/
def trav {α β : Type} (g : α → Option β) : List α → Option (List β)
  | [] => some []
  | x :: xs => (g x).bind fun y => (trav g xs).map (y :: ·)

theorem trav_bind {α β γ : Type} (g : α → Option β) (h : β → Option γ) (l : List α) :
    (trav g l).bind (trav h) = trav (fun x => (g x).bind h) l := by
  induction l with
  | nil => rfl
  | cons x xs ih =>
    simp only [trav]
    rw [← ih]
    cases g x with
    | none => rfl
    | some y =>
      cases trav g xs with
      | none => cases h y <;> simp
      | some ys => simp [trav]

theorem trav_congr {α β : Type} {g h : α → Option β} {l : List α} (e : ∀ x ∈ l, g x = h x) : trav g l = trav h l := by
  induction l with
  | nil => rfl
  | cons x xs ih =>
    simp only [trav]
    rw [e x (by simp), ih fun y hy => e y (List.mem_cons_of_mem _ hy)]

theorem trav_some {α : Type} (l : List α) : trav some l = some l := by
  induction l with
  | nil => rfl
  | cons x xs ih => simp [trav, ih]

theorem trav_names {V : Type} (g : Flag V → Option (Flag V)) (hg : ∀ f f', g f = some f' → f'.name = f.name) :
    ∀ (l l' : List (Flag V)), trav g l = some l' → l'.map (·.name) = l.map (·.name)
  | [], l', h => by simp [trav] at h; subst h; rfl
  | x :: xs, l', h => by
    simp only [trav] at h
    cases hx : g x with
    | none => simp [hx] at h
    | some y =>
      cases hxs : trav g xs with
      | none => simp [hx, hxs] at h
      | some ys =>
        simp [hx, hxs] at h
        subst h
        simp [hg x y hx, trav_names g hg xs ys hxs]

theorem setFlag_eq {V : Type} (n s : Txt) : ∀ (fs : List (Flag V)), (fs.map (·.name)).Nodup →
    setFlag fs n s = if n ∈ fs.map (·.name) then trav (fun f => if f.name = n then f.setTo s else some f) fs else none
  | [], _ => by simp [setFlag]
  | f :: fs, h => by
    simp only [List.map_cons, List.nodup_cons] at h
    simp only [setFlag, trav, List.map_cons, List.mem_cons]
    by_cases e : f.name = n
    · subst e
      have : trav (fun g : Flag V => if g.name = f.name then g.setTo s else some g) fs = some fs := by
        rw [trav_congr (h := some), trav_some]
        intro g hg
        rw [if_neg]
        intro hn
        exact h.1 (List.mem_map.2 ⟨g, hg, hn⟩)
      simp only [if_true, true_or, this]
      cases f.setTo s <;> rfl
    · have e' : ¬ n = f.name := fun x => e x.symm
      simp only [e, e', if_false, false_or]
      rw [setFlag_eq n s fs h.2]
      by_cases hm : n ∈ fs.map (·.name)
      · simp only [hm, if_true]; rfl
      · simp only [hm, if_false]; rfl

theorem given_cons {n : Txt} {s m : Txt} {rest : List (Txt × Txt)} :
    given ((n, s) :: rest) m = if n = m then s :: given rest m else given rest m := by
  simp only [given, List.filter_cons]
  by_cases h : n = m <;> simp [h]

theorem parse_eq {V : Type} : ∀ (args : List (Txt × Txt)) (fs : List (Flag V)), (fs.map (·.name)).Nodup →
    parseFlags fs args = if ∀ a ∈ args, a.1 ∈ fs.map (·.name) then trav (fun f => applyAll f (given args f.name)) fs else none
  | [], fs, _ => by
    simp only [parseFlags, List.not_mem_nil, false_implies, implies_true, if_true]
    rw [trav_congr (h := some), trav_some]
    intro f _
    simp [applyAll, given, setAll]
  | (n, s) :: rest, fs, h => by
    simp only [parseFlags]
    rw [setFlag_eq n s fs h]
    by_cases hn : n ∈ fs.map (·.name)
    · rw [if_pos hn]
      have hname : ∀ f f' : Flag V, (if f.name = n then f.setTo s else some f) = some f' → f'.name = f.name := by
        intro f f' e
        split at e
        · simp only [Flag.setTo, Option.map_eq_some_iff] at e
          obtain ⟨v, _, rfl⟩ := e
          rfl
        · cases e; rfl
      by_cases hk : ∀ a ∈ rest, a.1 ∈ fs.map (·.name)
      · have : ∀ a ∈ ((n, s) :: rest), a.1 ∈ fs.map (·.name) := by
          intro a ha
          rcases List.mem_cons.1 ha with rfl | ha
          · exact hn
          · exact hk a ha
        rw [if_pos this]
        have e : ((trav (fun f : Flag V => if f.name = n then f.setTo s else some f) fs).bind fun fs' => parseFlags fs' rest)
            = (trav (fun f : Flag V => if f.name = n then f.setTo s else some f) fs).bind
                (trav fun f => applyAll f (given rest f.name)) := by
          cases ht : trav (fun f : Flag V => if f.name = n then f.setTo s else some f) fs with
          | none => rfl
          | some fs' =>
            have hm := trav_names _ hname fs fs' ht
            simp only [Option.bind_some]
            rw [parse_eq rest fs' (by rw [hm]; exact h), hm, if_pos hk]
        rw [e, trav_bind]
        refine trav_congr fun f _ => ?_
        by_cases hf : f.name = n
        · subst hf
          simp only [if_true, Flag.setTo, given_cons, applyAll, setAll]
          cases hs : f.set f.value s with
          | none => simp
          | some v =>
            simp
        · have hf' : ¬ n = f.name := fun x => hf x.symm
          simp [hf, hf', given_cons]
      · have : ¬ ∀ a ∈ ((n, s) :: rest), a.1 ∈ fs.map (·.name) := fun x => hk fun a ha => x a (List.mem_cons_of_mem _ ha)
        rw [if_neg this]
        cases ht : trav (fun f : Flag V => if f.name = n then f.setTo s else some f) fs with
        | none => rfl
        | some fs' =>
          have hm := trav_names _ hname fs fs' ht
          simp only [Option.bind_some]
          rw [parse_eq rest fs' (by rw [hm]; exact h), hm, if_neg hk]
    · rw [if_neg hn, if_neg fun x => hn (x (n, s) (by simp))]
      rfl

theorem bind_eq {V : Type} (n : Txt) (ch : Bool) (env : Env) (fs : List (Flag V)) :
    bindFlags n ch env fs = trav (argumentFromEnvironmentVariable n ch env) fs := by
  induction fs with
  | nil => rfl
  | cons f fs ih =>
    simp only [bindFlags, trav]
    cases argumentFromEnvironmentVariable n ch env f with
    | none => rfl
    | some f' => simp [ih]

theorem normName_append (a b : Txt) : normName (a ++ b) = normName a ++ normName b := by simp [normName]

theorem normName_eq (a : Txt) : normName a = a.map fun c => if c = '-' then '_' else c.toUpper := by
  simp only [normName, List.map_map]
  refine List.map_congr_left fun c _ => ?_
  simp only [Function.comp]
  split
  · decide
  · rfl

theorem cand_eq (n : Txt) (ch : Bool) (m : Txt) :
    candidates n ch m = (if ch then [envName [n, m]] else []) ++ [envName [m]] := by
  have h1 : normName pfx = ['S', 'H', 'U', 'T', 'T', 'E', 'R', '_'] := by decide
  have h2 : normName ['_'] = ['_'] := by decide
  simp only [candidates, normName_append, h1, h2, envName, List.foldl]
  rw [normName_eq n, normName_eq m]
  simp

theorem env_eq {V : Type} (c : Command V) (env : Env) (f : Flag V) :
    fromEnvironment env f (candidates c.name c.child f.name)
      = (match fromEnv c env f.name with | none => some f | some s => f.setTo s) := by
  rw [cand_eq]
  simp only [fromEnv]
  cases c.child <;> simp [fromEnvironment]
  · cases env (envName [f.name]) <;> rfl
  · cases env (envName [c.name, f.name]) <;> simp
    cases env (envName [f.name]) <;> rfl

/-- Proof device: a flag with the texts that count -/
def final {V : Type} (c : Command V) (env : Env) (args : List (Txt × Txt)) (f : Flag V) : Option (Flag V) :=
  applyAll f (counts c env args f.name)

theorem final_eq {V : Type} (c : Command V) (env : Env) (args : List (Txt × Txt)) (f : Flag V) (hf : f.changed = false) :
    (applyAll f (given args f.name)).bind (argumentFromEnvironmentVariable c.name c.child env) = final c env args f := by
  simp only [final, counts]
  cases hg : given args f.name with
  | nil =>
    simp only [applyAll, setAll, hf, if_true]
    simp only [Option.map_some, Option.bind_some, List.isEmpty_nil, Bool.not_true, Bool.or_false]
    have : ({ f with value := f.value, changed := false } : Flag V) = f := by cases f; simp_all
    simp only [this, argumentFromEnvironmentVariable, Bool.false_eq_true, if_false]
    rw [env_eq]
    cases fromEnv c env f.name with
    | none => simp [setAll]; cases f; simp_all
    | some s =>
      simp only [Flag.setTo, setAll, Option.toList]
      cases f.set f.value s <;> simp
  | cons s ss =>
    simp only [List.cons_ne_nil, if_false]
    cases ha : applyAll f (s :: ss) with
    | none => rfl
    | some f' =>
      have : f'.changed = true := by
        simp only [applyAll, Option.map_eq_some_iff] at ha
        obtain ⟨v, _, rfl⟩ := ha
        simp
      simp [argumentFromEnvironmentVariable, this]

theorem start_eq {V : Type} {c : Command V} (hc : Declared c) (check : List (Flag V) → Bool) (env : Env)
    (args : List (Txt × Txt)) :
    start check env args c = if ∀ a ∈ args, a.1 ∈ c.flags.map (·.name) then
      (trav (final c env args) c.flags).bind fun fs => if check fs && requiredGiven fs then some fs else none else none := by
  simp only [start]
  rw [parse_eq args c.flags hc.names]
  split
  · rename_i hk
    split at hk
    · rename_i hkn
      rw [if_pos hkn]
      rw [trav_congr (h := fun f => (applyAll f (given args f.name)).bind (argumentFromEnvironmentVariable c.name c.child env))
        (fun f hf => (final_eq c env args f (hc.fresh f hf)).symm), ← trav_bind, hk]
      rfl
    · rename_i hkn
      rw [if_neg hkn]
  · rename_i fs hk
    split at hk
    · rename_i hkn
      rw [if_pos hkn]
      rw [trav_congr (h := fun f => (applyAll f (given args f.name)).bind (argumentFromEnvironmentVariable c.name c.child env))
        (fun f hf => (final_eq c env args f (hc.fresh f hf)).symm), ← trav_bind, hk]
      simp only [Option.bind_some]
      rw [bind_eq]
      cases trav (argumentFromEnvironmentVariable c.name c.child env) fs <;> rfl
    · cases hk

theorem trav_forall2 {α β : Type} (g : α → Option β) : ∀ (l : List α) (l' : List β),
    trav g l = some l' ↔ List.Forall₂ (fun x y => g x = some y) l l'
  | [], l' => by
    simp only [trav, Option.some.injEq]
    constructor
    · rintro rfl; exact .nil
    · intro h; cases h; rfl
  | x :: xs, l' => by
    simp only [trav]
    constructor
    · intro h
      cases hx : g x with
      | none => simp [hx] at h
      | some y =>
        cases hxs : trav g xs with
        | none => simp [hx, hxs] at h
        | some ys =>
          simp [hx, hxs] at h
          subst h
          exact .cons hx ((trav_forall2 g xs ys).1 hxs)
    · intro h
      cases h with
      | cons h1 h2 =>
        rw [h1, (trav_forall2 g xs _).2 h2]
        rfl

theorem trav_isSome {α β : Type} (g : α → Option β) : ∀ (l : List α),
    (∃ l', trav g l = some l') ↔ ∀ x ∈ l, (g x).isSome
  | [] => by simp [trav]
  | x :: xs => by
    have ih := trav_isSome g xs
    simp only [trav, List.mem_cons, forall_eq_or_imp, ← ih]
    cases g x <;> cases trav g xs <;> simp

/-- what `final` makes of a flag -/
theorem final_some {V : Type} {c : Command V} {env : Env} {args : List (Txt × Txt)} {f f' : Flag V} (hf : f.changed = false)
    (h : final c env args f = some f') :
    f'.name = f.name ∧ f'.required = f.required ∧ f'.set = f.set ∧ valueOf c env args f = some f'.value ∧
      (f'.changed = true ↔ isGiven c env args f) := by
  simp only [final, applyAll, Option.map_eq_some_iff] at h
  obtain ⟨v, hv, rfl⟩ := h
  refine ⟨rfl, rfl, rfl, hv, ?_⟩
  simp [hf, isGiven]

theorem settled_of {V : Type} {c : Command V} (hc : Declared c) {env : Env} {args : List (Txt × Txt)} {fs : List (Flag V)}
    (h : trav (final c env args) c.flags = some fs) :
    Settled c env args fs ∧ (requiredGiven fs = true ↔ ∀ f ∈ c.flags, f.required = true → isGiven c env args f) := by
  rw [trav_forall2] at h
  have hf := hc.fresh
  unfold Settled
  generalize c.flags = l at h hf
  induction h with
  | nil => exact ⟨.nil, by simp [requiredGiven]⟩
  | @cons f f' l l' hh ht ih =>
    have := final_some (hf f (by simp)) hh
    have ih := ih fun g hg => hf g (List.mem_cons_of_mem _ hg)
    refine ⟨.cons this ih.1, ?_⟩
    have ih2 := ih.2
    unfold requiredGiven at ih2 ⊢
    rw [List.all_cons, Bool.and_eq_true, ih2, this.2.1]
    simp only [List.mem_cons, forall_eq_or_imp]
    refine and_congr_left fun _ => ?_
    rw [← this.2.2.2.2]
    cases f.required <;> simp

theorem final_of {V : Type} {c : Command V} {env : Env} {args : List (Txt × Txt)} {f f' : Flag V} (hf : f.changed = false)
    (h : f'.name = f.name ∧ f'.required = f.required ∧ f'.set = f.set ∧ valueOf c env args f = some f'.value ∧
      (f'.changed = true ↔ isGiven c env args f)) : final c env args f = some f' := by
  obtain ⟨h1, h2, h3, h4, h5⟩ := h
  unfold valueOf at h4
  simp only [final, applyAll, h4, Option.map_some, hf, Bool.false_or, Option.some.injEq]
  obtain ⟨n, v, ch, r, st⟩ := f'
  simp only at h1 h2 h3 h5
  subst h1 h2 h3
  congr 1
  unfold isGiven at h5
  cases hh : counts c env args f.name <;> cases ch <;> simp_all

theorem settled_iff {V : Type} {c : Command V} (hc : Declared c) {env : Env} {args : List (Txt × Txt)} {fs : List (Flag V)} :
    Settled c env args fs ↔ trav (final c env args) c.flags = some fs := by
  refine ⟨fun h => ?_, fun h => (settled_of hc h).1⟩
  rw [trav_forall2]
  have hf := hc.fresh
  unfold Settled at h
  generalize c.flags = l at h hf
  induction h with
  | nil => exact .nil
  | @cons f f' l l' hh ht ih =>
    exact .cons (final_of (hf f (by simp)) hh) (ih fun g hg => hf g (List.mem_cons_of_mem _ hg))

/-- What is started depends only on the texts that count. -/
theorem start_congr {V : Type} {c : Command V} (hc : Declared c) (check : List (Flag V) → Bool) {env env' : Env}
    {args args' : List (Txt × Txt)}
    (hk : (∀ a ∈ args, a.1 ∈ c.flags.map (·.name)) ↔ (∀ a ∈ args', a.1 ∈ c.flags.map (·.name)))
    (h : ∀ f ∈ c.flags, counts c env args f.name = counts c env' args' f.name) :
    start check env args c = start check env' args' c := by
  rw [start_eq hc, start_eq hc]
  have : trav (final c env args) c.flags = trav (final c env' args') c.flags :=
    trav_congr fun f hf => by simp only [final, h f hf]
  rw [this]
  by_cases hh : ∀ a ∈ args, a.1 ∈ c.flags.map (·.name)
  · rw [if_pos hh, if_pos (hk.1 hh)]
  · rw [if_neg hh, if_neg fun x => hh (hk.2 x)]

end Shutter.Options
