import Verif.Proofs.Options
import Mathlib.Data.List.Nodup

/-!
# C98: an option is what the command line says, else what the environment says, else its default

For every command as declared (options of different names, none given yet), every environment, every command line and every way the
options' types parse texts.
-/

namespace Shutter.Options.Props

open Spec

/-- A command runs exactly if the command line names only options it has, every text that counts (the command line's, or the
environment's for an option the command line leaves out) parses, every required option is given by one of the two, and the
command's own checks accept these options. -/
theorem C98_runs {V : Type} {c : Command V} (hc : Declared c) (check : List (Flag V) → Bool) (env : Env) (args : List (Txt × Txt)) :
    (∃ fs, start check env args c = some fs) ↔
      (∀ a ∈ args, ∃ f ∈ c.flags, f.name = a.1) ∧ (∀ f ∈ c.flags, (valueOf c env args f).isSome) ∧
      (∀ f ∈ c.flags, f.required = true → isGiven c env args f) ∧ ∀ fs, Settled c env args fs → check fs = true := by
  rw [start_eq hc]
  have hv : (∀ f ∈ c.flags, (valueOf c env args f).isSome) ↔ ∃ fs, trav (final c env args) c.flags = some fs := by
    rw [trav_isSome]
    refine forall₂_congr fun f _ => ?_
    simp [final, applyAll, valueOf]
  have hk : (∀ a ∈ args, ∃ f ∈ c.flags, f.name = a.1) ↔ ∀ a ∈ args, a.1 ∈ c.flags.map (·.name) := by simp
  rw [hv, hk]
  constructor
  · rintro ⟨fs, h⟩
    split at h
    · rename_i hkn
      refine ⟨hkn, ?_⟩
      cases ht : trav (final c env args) c.flags with
      | none => simp [ht] at h
      | some gs =>
        simp only [ht, Option.bind_some] at h
        split at h
        · rename_i hcr
          rw [Bool.and_eq_true] at hcr
          refine ⟨⟨gs, rfl⟩, (settled_of hc ht).2.1 hcr.2, fun fs' hs => ?_⟩
          rw [settled_iff hc, ht] at hs
          cases hs
          exact hcr.1
        · cases h
    · cases h
  · rintro ⟨hkn, ⟨gs, ht⟩, hr, hch⟩
    refine ⟨gs, ?_⟩
    rw [if_pos hkn, ht, Option.bind_some, hch gs (settled_of hc ht).1, (settled_of hc ht).2.2 hr]
    rfl

/-- A command that runs has each option as the texts that count make it, and these were accepted. -/
theorem C98_values {V : Type} {c : Command V} (hc : Declared c) {check : List (Flag V) → Bool} {env : Env} {args : List (Txt × Txt)}
    {fs : List (Flag V)} (h : start check env args c = some fs) : Settled c env args fs ∧ check fs = true := by
  rw [start_eq hc] at h
  split at h
  · cases ht : trav (final c env args) c.flags with
    | none => simp [ht] at h
    | some gs =>
      simp only [ht, Option.bind_some] at h
      split at h
      · rename_i hcr
        cases h
        rw [Bool.and_eq_true] at hcr
        exact ⟨(settled_of hc ht).1, hcr.1⟩
      · cases h
  · cases h

/-- One option of a command that runs: given on the command line it is what the texts there make it, whatever the environment holds;
otherwise, if this command's variable is set, its text makes it; otherwise the variable all commands share; otherwise the default. -/
theorem C98_value {V : Type} {c : Command V} (hc : Declared c) {check : List (Flag V) → Bool} {env : Env} {args : List (Txt × Txt)}
    {fs : List (Flag V)} (h : start check env args c = some fs) {f : Flag V} (hf : f ∈ c.flags) :
    ∃ f' ∈ fs, f'.name = f.name ∧
      (given args f.name ≠ [] → setAll f.set f.value (given args f.name) = some f'.value) ∧
      (given args f.name = [] →
        (∀ s, c.child = true → env (envName [c.name, f.name]) = some s → f.set f.value s = some f'.value) ∧
        (∀ s, (c.child = true → env (envName [c.name, f.name]) = none) → env (envName [f.name]) = some s →
          f.set f.value s = some f'.value) ∧
        ((c.child = true → env (envName [c.name, f.name]) = none) → env (envName [f.name]) = none → f'.value = f.value)) := by
  have hs := (C98_values hc h).1
  unfold Settled at hs
  obtain ⟨i, hi, hfi⟩ := List.getElem_of_mem hf
  have hl := hs.length_eq
  have hi' : i < fs.length := by omega
  have := (List.forall₂_iff_get.1 hs).2 i hi hi'
  simp only [List.get_eq_getElem, hfi] at this
  obtain ⟨h1, -, -, hv, -⟩ := this
  refine ⟨fs[i], List.getElem_mem _, h1, ?_, ?_⟩
  · intro hg
    simpa only [valueOf, counts, if_neg hg] using hv
  · intro hg
    simp only [valueOf, counts, if_pos hg, fromEnv] at hv
    refine ⟨fun s hch he => ?_, fun s hn he => ?_, fun hn he => ?_⟩
    · simp only [hch, if_true, he, Option.toList, setAll] at hv
      revert hv
      cases f.set f.value s <;> simp
    · cases hch : c.child
      · simp only [hch, Bool.false_eq_true, if_false, he, Option.toList, setAll] at hv
        revert hv
        cases f.set f.value s <;> simp
      · simp only [hch, if_true, hn hch, he, Option.toList, setAll] at hv
        revert hv
        cases f.set f.value s <;> simp
    · cases hch : c.child
      · simp only [hch, Bool.false_eq_true, if_false, he, Option.toList, setAll, Option.some.injEq] at hv
        exact hv.symm
      · simp only [hch, if_true, hn hch, he, Option.toList, setAll, Option.some.injEq] at hv
        exact hv.symm

/-- For an option given on the command line the environment does not matter, not even a text there that does not parse: two
environments that agree on the options left out start the same. -/
theorem C98_line_wins {V : Type} {c : Command V} (hc : Declared c) (check : List (Flag V) → Bool) {env env' : Env}
    {args : List (Txt × Txt)} (h : ∀ f ∈ c.flags, given args f.name = [] → fromEnv c env f.name = fromEnv c env' f.name) :
    start check env args c = start check env' args c := by
  refine start_congr hc check Iff.rfl fun f hf => ?_
  simp only [counts]
  split
  · rename_i hg
    rw [h f hf hg]
  · rfl

/-- A variable is as good as the command line: an option left out and set by the environment is as if the text had been given. -/
theorem C98_as_given {V : Type} {c : Command V} (hc : Declared c) (check : List (Flag V) → Bool) {env : Env}
    {args : List (Txt × Txt)} {f : Flag V} (hf : f ∈ c.flags) (hg : given args f.name = []) {s : Txt}
    (he : fromEnv c env f.name = some s) :
    start check env args c = start check env ((f.name, s) :: args) c := by
  refine start_congr hc check ?_ fun g _ => ?_
  · constructor
    · intro h a ha
      rcases List.mem_cons.1 ha with rfl | ha
      · exact List.mem_map.2 ⟨f, hf, rfl⟩
      · exact h a ha
    · exact fun h a ha => h a (List.mem_cons_of_mem _ ha)
  · simp only [counts, given_cons]
    by_cases e : f.name = g.name
    · rw [if_pos e, ← e, hg, he]
      simp
    · rw [if_neg e]

/-- A command that runs has one of the four log formats. -/
theorem C98_log {V : Type} {c : Command V} (hc : Declared c) {text : V → Txt} {more : List (Flag V) → Bool} {env : Env}
    {args : List (Txt × Txt)} {fs : List (Flag V)} (h : start (fun fs => logCheck text fs && more fs) env args c = some fs) :
    ∃ f ∈ c.flags, f.name = "log".toList ∧ ∃ v, valueOf c env args f = some v ∧
      text v ∈ ["min".toList, "short".toList, "long".toList, "max".toList] := by
  obtain ⟨hs, hch⟩ := C98_values hc h
  rw [Bool.and_eq_true] at hch
  have hl := hch.1
  unfold logCheck at hl
  split at hl
  · rename_i f' hfind
    have hm := List.mem_of_find?_eq_some hfind
    have hn : f'.name = ['l', 'o', 'g'] := by simpa using List.find?_some hfind
    obtain ⟨i, hi, hfi⟩ := List.getElem_of_mem hm
    have hlen := hs.length_eq
    have hi' : i < c.flags.length := by omega
    have := (List.forall₂_iff_get.1 hs).2 i hi' hi
    simp only [List.get_eq_getElem, hfi] at this
    refine ⟨c.flags[i], List.getElem_mem _, ?_, f'.value, this.2.2.2.1, ?_⟩
    · rw [← this.1, hn]; decide
    · have : text f'.value ∈ logFormats := by simpa using hl
      have e : logFormats = ["min".toList, "short".toList, "long".toList, "max".toList] := by decide
      rwa [e] at this
  · cases hl

/-- A command with a required owner's key signs with the key its option says, from the command line or the environment: one whose
text is no key does not run. -/
theorem C98_owner_key {V K : Type} {c : Command V} (hc : Declared c) {hexToECDSA : V → Option K} {more : List (Flag V) → Bool} {env : Env}
    {args : List (Txt × Txt)} {fs : List (Flag V)} {f : Flag V} (hf : f ∈ c.flags) (hn : f.name = "owner-key".toList)
    (hr : f.required = true)
    (h : start (fun fs => (parseOwnerKey hexToECDSA fs).isSome && more fs) env args c = some fs) :
    ∃ v k, valueOf c env args f = some v ∧ hexToECDSA v = some k ∧ parseOwnerKey hexToECDSA fs = some (some k) := by
  obtain ⟨hs, hch⟩ := C98_values hc h
  rw [Bool.and_eq_true] at hch
  have hreq := ((C98_runs hc _ env args).1 ⟨fs, h⟩).2.2.1 f hf hr
  have hp := hch.1
  clear hch h
  unfold parseOwnerKey at hp ⊢
  generalize "owner-key".toList = key at hn hp ⊢
  obtain ⟨i, hi, hfi⟩ := List.getElem_of_mem hf
  have hlen := hs.length_eq
  have hall := (List.forall₂_iff_get.1 hs).2
  have hthis := hall i hi (by omega)
  simp only [List.get_eq_getElem, hfi] at hthis
  have hnd := hc.names
  cases hfind : fs.find? (fun f => f.name = key) with
  | none =>
    rw [List.find?_eq_none] at hfind
    refine absurd ?_ (hfind fs[i] (List.getElem_mem _))
    rw [hthis.1, hn]; simp
  | some f' =>
    have hm := List.mem_of_find?_eq_some hfind
    have hn' : f'.name = key := by simpa using List.find?_some hfind
    obtain ⟨j, hj, hfj⟩ := List.getElem_of_mem hm
    have hj' := hall j (by omega) hj
    simp only [List.get_eq_getElem, hfj] at hj'
    have hij : j = i := by
      have e : (c.flags.map (·.name))[j]'(by rw [List.length_map]; omega) = (c.flags.map (·.name))[i]'(by rw [List.length_map]; omega) := by
        simp only [List.getElem_map, hfi, ← hj'.1, hn', hn]
      exact (List.Nodup.getElem_inj_iff hnd).1 e
    subst hij
    rw [hfi] at hj'
    have hchg := hj'.2.2.2.2.2 hreq
    simp only [hfind, hchg, if_true] at hp ⊢
    refine ⟨f'.value, ?_⟩
    cases hk : hexToECDSA f'.value with
    | none => simp [hk] at hp
    | some k => exact ⟨k, hj'.2.2.2.1, rfl, rfl⟩

/-! ## The variables of shuttermint's commands -/

/-- The variable for one command's option, and the one for that option of all commands. -/
def own (c : Cmd) (o : String) : Txt := envName [c.name.toList, o.toList]
def shared (o : String) : Txt := envName [o.toList]

/-- The options of each command have different names, and no variable is read for two of them. -/
theorem C98_distinct : ∀ c ∈ commands, (c.options.map (·.1)).Nodup ∧
    ((c.options.map fun o => own c o.1) ++ (c.options.map fun o => shared o.1)).Nodup := by
  decide +kernel

/-- A variable for one command's option is read by no other command, but by commands of the same name for the option of the same
name, and it is no option's shared variable. -/
theorem C98_own : ∀ c ∈ commands, ∀ o ∈ c.options, ∀ c' ∈ commands, ∀ o' ∈ c'.options,
    (own c o.1 = own c' o'.1 → c.name = c'.name ∧ o.1 = o'.1) ∧ own c o.1 ≠ shared o'.1 ∧
    (shared o.1 = shared o'.1 → o.1 = o'.1) := by
  decide +kernel

/-- The two commands called `query` are set by the same variable, and one called `config` names files of different kinds. -/
theorem C98_shared_counterexample :
    (∃ c ∈ commands, ∃ c' ∈ commands, c.path ≠ c'.path ∧ own c "ethereum-url" = own c' "ethereum-url" ∧
      ("ethereum-url", true) ∈ c.options ∧ ("ethereum-url", false) ∈ c'.options) ∧
    (commands.filter fun c => (c.options.map (·.1)).contains "config").map (·.path)
      = [["chain"], ["keyper"], ["prepare", "fund"], ["prepare", "fund", "query"], ["config", "set-next"], ["config", "schedule"]] := by
  decide +kernel

/-! ## Examples -/

/-- Go's strconv.ParseBool and string options -/
inductive Val
  | text (s : Txt)
  | bool (b : Bool)
  deriving DecidableEq

def Val.set : Val → Txt → Option Val
  | .text _, s => some (.text s)
  | .bool _, s =>
    if ["1", "t", "T", "TRUE", "true", "True"].any (·.toList = s) then some (.bool true)
    else if ["0", "f", "F", "FALSE", "false", "False"].any (·.toList = s) then some (.bool false)
    else none

def Val.toText : Val → Txt
  | .text s => s
  | .bool _ => []

def mk (n : String) (v : Val) (r : Bool) : Flag Val := ⟨n.toList, v, false, r, Val.set⟩

/-- `shuttermint chain` -/
def chain : Command Val :=
  ⟨"chain".toList, true, [mk "config" (.text []) true, mk "help" (.bool false) false, mk "log" (.text "long".toList) false]⟩

theorem chain_declared : Declared chain := ⟨by decide +kernel, by decide +kernel⟩

/-- `chain` is among the commands, with these options. -/
example : ∃ c ∈ commands, c.name.toList = chain.name ∧
    ∀ o : Txt × Bool, o ∈ c.options.map (fun o => (o.1.toList, o.2)) ↔ o ∈ chain.flags.map fun f => (f.name, f.required) := by
  refine ⟨commands[0], by simp [commands], by decide +kernel, ?_⟩
  have : (commands[0].options.map (fun o => (o.1.toList, o.2))).Perm (chain.flags.map fun f => (f.name, f.required)) := by
    decide +kernel
  exact fun o => this.mem_iff

def envOf (l : List (String × String)) : Env := fun n => (l.find? fun p => p.1.toList = n).map (·.2.toList)

def values (r : Option (List (Flag Val))) : Option (List Val) := r.map (·.map (·.value))

/-- `SHUTTER_CONFIG=a SHUTTER_CHAIN_CONFIG=b SHUTTER_LOG=min shuttermint chain` and `shuttermint chain --config c --log max`, the log
format of the environment unknown -/
theorem C98_example :
    values (start (logCheck Val.toText) (envOf [("SHUTTER_CONFIG", "a"), ("SHUTTER_CHAIN_CONFIG", "b"), ("SHUTTER_LOG", "min")]) [] chain)
      = some [.text ['b'], .bool false, .text "min".toList] ∧
    values (start (logCheck Val.toText) (envOf [("SHUTTER_CHAIN_CONFIG", "b"), ("SHUTTER_LOG", "loud")])
      [("config".toList, ['c']), ("log".toList, "max".toList)] chain) = some [.text ['c'], .bool false, .text "max".toList] ∧
    values (start (logCheck Val.toText) (envOf [("SHUTTER_LOG", "loud")]) [("config".toList, ['c'])] chain) = none ∧
    values (start (logCheck Val.toText) (envOf [("SHUTTER_KEYPER_CONFIG", "b")]) [] chain) = none := by
  decide +kernel

/-- `--help` is an option as well: with a variable SHUTTER_HELP that is no truth value nothing runs. And a variable that is there but
empty counts as given: the required option is an empty text. -/
theorem C98_help_counterexample :
    values (start (logCheck Val.toText) (envOf [("SHUTTER_HELP", "yes")]) [("config".toList, ['c'])] chain) = none ∧
    values (start (logCheck Val.toText) (envOf [("SHUTTER_CONFIG", "")]) [] chain)
      = some [.text [], .bool false, .text "long".toList] := by
  decide +kernel

/-- `config set-next` without the options that do not matter here -/
def setNext : Command Val :=
  ⟨"set-next".toList, true, [mk "config" (.text []) true, mk "log" (.text "long".toList) false, mk "owner-key" (.text []) true]⟩

theorem setNext_declared : Declared setNext := ⟨by decide +kernel, by decide +kernel⟩

def noZ : Val → Option Txt := fun v => if v.toText.contains 'z' then none else some v.toText

example :
    values (start (fun fs => (parseOwnerKey noZ fs).isSome && logCheck Val.toText fs)
      (envOf [("SHUTTER_SET_NEXT_OWNER_KEY", "ab"), ("SHUTTER_OWNER_KEY", "z")]) [("config".toList, ['c'])] setNext)
      = some [.text ['c'], .text "long".toList, .text ['a', 'b']] ∧
    values (start (fun fs => (parseOwnerKey noZ fs).isSome && logCheck Val.toText fs)
      (envOf [("SHUTTER_OWNER_KEY", "z")]) [("config".toList, ['c'])] setNext) = none := by
  decide +kernel

end Shutter.Options.Props
