import Verif.Macro.Lemmas
set_option autoImplicit false
/-! Property C19: macro definitions behave like a dictionary. -/
namespace Smlr.Macro

/-- the history as one list, latest first: command-line and predefined macros, then the directives -/
def history (defs : List (Str × Str)) (ops : List Op) : List Op :=
  ops.reverse ++ (defs.map fun d => Op.define d.1 d.2).reverse

/-- strings of a history -/
def HistOk (defs : List (Str × Str)) (ops : List Op) : Prop :=
  (∀ d ∈ defs, NoNul d.1 ∧ NoNul d.2) ∧ (defs.map (·.1)).Nodup ∧ ∀ o ∈ ops, o.Ok

theorem reached (defs : List (Str × Str)) (ops : List Op) (h : HistOk defs ops) (t0 t : Tab) (h0 : runDefs empty defs = .ok t0)
    (ht : run t0 ops = .ok t) : Rep t (history defs ops) := by
  have := rep_defs defs empty [] rep_empty h.1 h.2.1 (fun _ _ => rfl) t0 h0
  rw [List.append_nil] at this
  exact rep_run ops t0 _ this h.2.2 t ht

/-- C19: after any accepted sequence of command-line definitions (of different names) and `#define`/`#undef` directives,
every name expands to the body, without trailing blanks, of its latest `#define` if no `#undef` followed, and to nothing
otherwise; the lookup never leaves the table -/
theorem c19_lookup (defs : List (Str × Str)) (ops : List Op) (h : HistOk defs ops) (t0 t : Tab) (h0 : runDefs empty defs = .ok t0)
    (ht : run t0 ops = .ok t) (name : Str) (hn : NoNul name) : expand t name = .ok (latest (history defs ops) name) := by
  obtain ⟨es, h1, _, h3⟩ := reached defs ops h t0 t h0 ht
  rw [expand_ok t es h1 name hn, h3]

/-- C19: which directives are accepted.  The space used is exactly that of the definitions in force (`live`); `#undef` is
always accepted; `#define` of a defined name is the diagnosed redefinition; `#define` of an undefined name is accepted
exactly if name, body and the free space of the table of 5120 bytes permit.  No directive ever accesses memory outside the table -/
theorem c19_accept (defs : List (Str × Str)) (ops : List Op) (h : HistOk defs ops) (t0 t : Tab) (h0 : runDefs empty defs = .ok t0)
    (ht : run t0 ops = .ok t) : ∃ live : List (Str × Str),
    (live.map (·.1)).Nodup ∧ (∀ n b, (n, b) ∈ live ↔ latest (history defs ops) n = some b) ∧
    (∀ n, NoNul n → ∃ t', step t (.undef n) = .ok t') ∧
    (∀ n b, NoNul n → NoNul b → latest (history defs ops) n ≠ none → step t (.define n b) = .error .redefinition) ∧
    (∀ n b, NoNul n → NoNul b → latest (history defs ops) n = none →
      (Fits (5120 - (live.map fun d => size d.1 d.2).sum) n b → ∃ t', step t (.define n b) = .ok t') ∧
      (¬ Fits (5120 - (live.map fun d => size d.1 d.2).sum) n b →
        ∃ e, step t (.define n b) = .error e ∧ (e = .nameTooLong ∨ e = .bodyTooLong ∨ e = .full))) := by
  have hrep := reached defs ops h t0 t h0 ht
  obtain ⟨es, h1, h2, h3⟩ := id hrep
  refine ⟨es, h2, fun n b => ?_, fun n hn => ?_, fun n b hn hb hl => ?_, fun n b hn hb hl => ?_⟩
  · rw [← h3]; exact mem_iff_lookup es h2 n b
  · obtain ⟨t', g, _⟩ := rep_undef t _ hrep n hn
    exact ⟨t', g⟩
  · obtain ⟨i, hi⟩ := (find_iff t es h1 n hn).2 (by rw [h3]; exact hl)
    simp only [step, define, hi]
  · have hf := (find_iff t es h1 n hn).1 (by rw [h3]; exact hl)
    have hm := defineMacro_ok t es h1 n b hn hb
    rw [enc_len] at hm
    simp only [step, define, hf]
    exact ⟨fun hfit => (hm.1 hfit).imp fun _ g => g.1, hm.2⟩

-- `#define A x`, `#define B y `, `#undef A`
example : HistOk [] [.define [0x41] [0x78], .define [0x42] [0x79, 0x20], .undef [0x41]] := by
  refine ⟨by simp, by simp, ?_⟩
  intro o ho
  simp only [List.mem_cons, List.not_mem_nil, or_false] at ho
  rcases ho with rfl | rfl | rfl <;> simp [Op.Ok, NoNul]
example : ∃ t, run empty [.define [0x41] [0x78], .define [0x42] [0x79, 0x20], .undef [0x41]] = .ok t ∧
    expand t [0x41] = .ok none ∧ expand t [0x42] = .ok (some [0x79]) :=
  run_example

/-- C19 fails when a name is defined twice on the command line (or a predefined macro is redefined there): the first
definition wins, and `#undef` brings the second one into force instead of removing the macro -/
theorem c19_defect : ∃ t t', runDefs empty [([0x41], [0x31]), ([0x41], [0x32])] = .ok t ∧ expand t [0x41] = .ok (some [0x31]) ∧
    run t [.undef [0x41]] = .ok t' ∧ expand t' [0x41] = .ok (some [0x32]) := by
  have hA : NoNul [0x41] := by simp [NoNul]
  obtain ⟨t1, h1, g1⟩ := (defineMacro_ok empty [] holds_empty [0x41] [0x31] hA (by simp [NoNul])).1 (by unfold Fits; decide)
  obtain ⟨t2, h2, g2⟩ := (defineMacro_ok t1 _ g1 [0x41] [0x32] hA (by simp [NoNul])).1 (by unfold Fits; decide +kernel)
  obtain ⟨t3, h3, g3⟩ := undef_holds t2 _ g2 [0x41] hA
  refine ⟨t2, t3, ?_, ?_, ?_, ?_⟩
  · simp only [runDefs, h1, h2]
  · rw [expand_ok t2 _ g2 _ hA]; rfl
  · simp only [run, step, h3]
  · rw [expand_ok t3 _ g3 _ hA]; rfl

end Smlr.Macro
