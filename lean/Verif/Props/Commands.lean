import Verif.Spec.Commands
import Verif.Props.Cli

/-!
# C58, C59, C61, C72: every way a command can end
-/

namespace Verif.Props
open Runner Spec Cli
variable {T : Type} {env : Env FE T}

/-! ## C58: which run the prover's arguments come from -/

/-- **C58**: the prover's arguments for a program are determined by the one run of the virtual machine with
that program, version and the version's layout (small for version 0, plain for version 1); an error of that
run is returned, and a panic of it is a panic. -/
theorem C58_one_run (vm : Vm) (program : Bytes) {version : CairoVersion} {layout : CairoLayout}
    (hl : LayoutFor version layout) (output : Option (Nat × Nat)) :
    (∀ vm' : Vm, vm' version layout program = vm version layout program →
      generateProverArgs vm' program version output = generateProverArgs vm program version output) ∧
    (∀ e, vm version layout program = .err e → generateProverArgs vm program version output = .err e) ∧
    (∀ r, vm version layout program = .ok r → r.relocatedTrace = none →
      generateProverArgs vm program version output = .err .trace) ∧
    (vm version layout program = .panic → generateProverArgs vm program version output = .panic) := by
  obtain rfl := layoutFor_eq hl
  unfold generateProverArgs runProgram
  refine ⟨fun vm' h => by rw [h], fun e h => by rw [h]; rfl, fun r h hr => ?_, fun h => by rw [h]; rfl⟩
  rw [h]
  simp only [Outcome.bind_ok, hr]
  rfl

/-- **C59**: how the command `prove` ends. Without both paths it prints the usage; if the program cannot be
read it says so; otherwise the program is run once, as the version of its file name with that version's
layout, and nothing else of the virtual machine matters; a failed run is reported and writes nothing; and
whatever happens, it gives no verdict and writes to no other path than the second one. -/
theorem C59_prove_ends (vm : Vm) (w : World) (name : String) :
    Cli.main env vm w [name, "prove"] = .ok .usage ∧
    (∀ inp, Cli.main env vm w [name, "prove", inp] = .ok .usage) ∧
    ∀ inp out rest,
      (w.read inp = none → Cli.main env vm w (name :: "prove" :: inp :: out :: rest) = .ok .notOpened) ∧
      (∀ program version layout, w.read inp = some program → RunAs inp version layout →
        (∀ vm' : Vm, vm' version layout program = vm version layout program →
          Cli.main env vm' w (name :: "prove" :: inp :: out :: rest)
            = Cli.main env vm w (name :: "prove" :: inp :: out :: rest)) ∧
        (∀ e, vm version layout program = .err e →
          Cli.main env vm w (name :: "prove" :: inp :: out :: rest) = .ok .notRun) ∧
        (vm version layout program = .panic →
          Cli.main env vm w (name :: "prove" :: inp :: out :: rest) = .panic)) ∧
      (∀ e, Cli.main env vm w (name :: "prove" :: inp :: out :: rest) = .ok e →
        e = .notOpened ∨ e = .notRun ∨ (e = .notWritten ∧ w.writable out = false) ∨
          ∃ file, e = .wrote out file ∧ w.writable out = true) := by
  refine ⟨rfl, fun _ => rfl, fun inp out rest => ⟨fun h => ?_, fun program version layout hr ha => ?_,
    fun e h => ?_⟩⟩
  · simp only [Cli.main, if_true, proveCommand, generateProof, h]
    rfl
  · obtain ⟨rfl, rfl⟩ := runAs_version ha
    obtain ⟨h1, h2, -, h4⟩ := C58_one_run vm program (layoutOf_for (versionOf inp)) none
    refine ⟨fun vm' h => ?_, fun e h => ?_, fun h => ?_⟩
    · simp only [Cli.main, if_true, proveCommand, generateProof, hr, Outcome.okOr, Outcome.bind_ok, h1 vm' h]
    · simp only [Cli.main, if_true, proveCommand, generateProof, hr, Outcome.okOr, Outcome.bind_ok, h2 e h]
      rfl
    · simp only [Cli.main, if_true, proveCommand, generateProof, hr, Outcome.okOr, Outcome.bind_ok, h4 h]
      rfl
  · simp only [Cli.main, if_true] at h
    cases hp : proveCommand env vm w (name :: "prove" :: inp :: out :: rest) with
    | panic => rw [hp] at h; cases h
    | err e' =>
      rw [hp] at h
      cases h
      rcases proveCommand_err hp with h | h
      · exact .inl h
      · exact .inr (.inl h)
    | ok e' =>
      rw [hp] at h
      cases h
      simp only [proveCommand, Outcome.bind_eq_ok] at hp
      obtain ⟨x, -, bytes, -, hp⟩ := hp
      split at hp
      · next hw => cases hp; exact .inr (.inr (.inr ⟨_, rfl, hw⟩))
      · next hw => cases hp; exact .inr (.inr (.inl ⟨rfl, by simpa using hw⟩))

/-- **C61**: how the command `verify` ends. Without a path it prints the usage, if the file cannot be opened
it says so, if the file is not that of a proof and public inputs it says so, and only for the other files it
gives a verdict, which is that of the verifier; it panics exactly when decoding or the verifier does. The
virtual machine plays no part. -/
theorem C61_verify_ends (vm : Vm) (w : World) (name : String) :
    Cli.main env vm w [name, "verify"] = .ok .usage ∧
    ∀ path rest,
      (w.read path = none → Cli.main env vm w (name :: "verify" :: path :: rest) = .ok .notOpened) ∧
      ∀ file, w.read path = some file →
        (∀ e, readProofFile file = .err e →
          Cli.main env vm w (name :: "verify" :: path :: rest) = .ok .notRead) ∧
        (readProofFile file = .panic → Cli.main env vm w (name :: "verify" :: path :: rest) = .panic) ∧
        ∀ proof pi, readProofFile file = .ok (proof, pi) →
          (∀ b, Cli.main env vm w (name :: "verify" :: path :: rest) = .ok (.verdict b) ↔
            CairoAir.verifyCairoProof env proof pi ProofOptions.defaultTestOptions = .ok b) ∧
          (Cli.main env vm w (name :: "verify" :: path :: rest) = .panic ↔
            CairoAir.verifyCairoProof env proof pi ProofOptions.defaultTestOptions = .panic) := by
  have h1 : ¬ "verify" = "prove" := by decide
  refine ⟨rfl, fun path rest => ⟨fun h => ?_, fun file hr => ⟨fun e h => ?_, fun h => ?_,
    fun proof pi h => ?_⟩⟩⟩
  · simp only [Cli.main, if_neg h1, if_true, verifyCommand, h]
    rfl
  · simp only [Cli.main, if_neg h1, if_true, verifyCommand, hr, Outcome.okOr, Outcome.bind_ok, h]
    rfl
  · simp only [Cli.main, if_neg h1, if_true, verifyCommand, hr, Outcome.okOr, Outcome.bind_ok, h]
    rfl
  · rw [verify_reads hr h]
    unfold verifyProof
    cases CairoAir.verifyCairoProof env proof pi ProofOptions.defaultTestOptions with
    | panic => exact ⟨fun b => ⟨nofun, nofun⟩, ⟨fun _ => rfl, fun _ => rfl⟩⟩
    | err e => cases e
    | ok b =>
      refine ⟨fun b' => ?_, ⟨nofun, nofun⟩⟩
      simp only [Outcome.unwrapErr, Outcome.bind_ok, Outcome.pure_eq, finish, Outcome.ok.injEq,
        Effect.verdict.injEq]

/-- **C60**: how the command `prove_and_verify` ends when no proof comes about, and that it never writes a
file. -/
theorem C60_ends (vm : Vm) (w : World) (name : String) :
    Cli.main env vm w [name, "prove_and_verify"] = .ok .usage ∧
    ∀ inp rest,
      (w.read inp = none →
        Cli.main env vm w (name :: "prove_and_verify" :: inp :: rest) = .ok .notOpened) ∧
      (∀ program version layout, w.read inp = some program → RunAs inp version layout →
        ∀ e, vm version layout program = .err e →
          Cli.main env vm w (name :: "prove_and_verify" :: inp :: rest) = .ok .notRun) ∧
      (∀ e, Cli.main env vm w (name :: "prove_and_verify" :: inp :: rest) = .ok e →
        e = .notOpened ∨ e = .notRun ∨ ∃ b, e = .verdict b) := by
  have h1 : ¬ "prove_and_verify" = "prove" := by decide
  have h2 : ¬ "prove_and_verify" = "verify" := by decide
  refine ⟨rfl, fun inp rest => ⟨fun h => ?_, fun program version layout hr ha e h => ?_, fun e h => ?_⟩⟩
  · simp only [Cli.main, if_neg h1, if_neg h2, if_true, proveAndVerifyCommand, generateProof, h]
    rfl
  · obtain ⟨rfl, rfl⟩ := runAs_version ha
    obtain ⟨-, h3, -⟩ := C58_one_run vm program (layoutOf_for (versionOf inp)) none
    simp only [Cli.main, if_neg h1, if_neg h2, if_true, proveAndVerifyCommand, generateProof, hr,
      Outcome.okOr, Outcome.bind_ok, h3 e h]
    rfl
  · simp only [Cli.main, if_neg h1, if_neg h2, if_true, proveAndVerifyCommand] at h
    cases hp : generateProof env vm w inp ProofOptions.defaultTestOptions with
    | panic => rw [hp] at h; cases h
    | err e' =>
      rw [hp] at h
      cases h
      rcases generateProof_err hp with h | h
      · exact .inl h
      · exact .inr (.inl h)
    | ok x =>
      rw [hp] at h
      simp only [Outcome.bind_ok, verifyProof] at h
      cases hv : CairoAir.verifyCairoProof env x.1 x.2 ProofOptions.defaultTestOptions with
      | panic => rw [hv] at h; cases h
      | err e => cases e
      | ok b => rw [hv] at h; cases h; exact .inr (.inr ⟨b, rfl⟩)

/-- **C61**: without a command the usage is printed, and a command that is none of the three is reported as
unknown; nothing is read or written. -/
theorem C61_other_commands (vm : Vm) (w : World) :
    Cli.main env vm w [] = .ok .usage ∧
    (∀ name, Cli.main env vm w [name] = .ok .usage) ∧
    ∀ name command rest, command ∉ ["prove", "verify", "prove_and_verify"] →
      Cli.main env vm w (name :: command :: rest) = .ok .unknown := by
  refine ⟨rfl, fun _ => rfl, fun name command rest h => ?_⟩
  simp only [List.mem_cons, List.not_mem_nil, or_false, not_or] at h
  simp only [Cli.main, if_neg h.1, if_neg h.2.1, if_neg h.2.2]

/-! ## C72: the names of the layouts -/

/-- **C72**: every layout has the name under which cairo-vm knows it. -/
theorem C72_layout_table (l : CairoLayout) (s : String) : l.asStr = s ↔ (l, s) ∈ layoutNames := by
  constructor
  · rintro rfl
    cases l <;> simp [layoutNames, CairoLayout.asStr]
  · intro h
    cases l <;> simp [layoutNames] at h <;> exact h.symm

/-! ## Examples -/

example : RunAs "fib.casm" .v1 .plain ∧ RunAs "a.casm.json" .v1 .plain ∧ RunAs "fib.json" .v0 .small :=
  ⟨.casm ⟨"fib", "", by decide⟩ .v1, .casm ⟨"a", ".json", by decide⟩ .v1,
    .cairo0 (fun h => absurd ((isCasm_iff _).1 h) (by decide)) .v0⟩

/-- A virtual machine that fails on version 1 programs, and two files: one too short for a proof. -/
example (env : Env FE T) :
    let vm : Vm := fun v _ _ => match v with | .v0 => .panic | .v1 => .err .runner
    let w : World := ⟨fun p => if p = "p.casm" ∨ p = "p.json" then some [1, 2, 3] else none, fun _ => true⟩
    Cli.main env vm w ["cairo", "prove", "p.casm", "out"] = .ok .notRun ∧
    Cli.main env vm w ["cairo", "prove", "p.json", "out"] = .panic ∧
    Cli.main env vm w ["cairo", "prove", "p.cairo", "out"] = .ok .notOpened ∧
    Cli.main env vm w ["cairo", "verify", "p.json"] = .ok .notRead ∧
    Cli.main env vm w ["cairo", "verify", "q.json"] = .ok .notOpened ∧
    Cli.main env vm w ["cairo", "compile"] = .ok .unknown := by
  intro vm w
  refine ⟨?_, ?_, ?_, ?_, ?_, ?_⟩
  · exact (((C59_prove_ends vm w "cairo").2.2 "p.casm" "out" []).2.1 [1, 2, 3] .v1 .plain (by decide)
      (.casm ⟨"p", "", by decide⟩ .v1)).2.1 .runner rfl
  · exact (((C59_prove_ends vm w "cairo").2.2 "p.json" "out" []).2.1 [1, 2, 3] .v0 .small (by decide)
      (.cairo0 (fun h => absurd ((isCasm_iff _).1 h) (by decide)) .v0)).2.2 rfl
  · exact ((C59_prove_ends vm w "cairo").2.2 "p.cairo" "out" []).1 (by decide)
  · obtain ⟨e, he⟩ : ∃ e, readProofFile [1, 2, 3] = .err e := ⟨_, rfl⟩
    exact (((C61_verify_ends vm w "cairo").2 "p.json" []).2 [1, 2, 3] (by decide)).1 e he
  · exact ((C61_verify_ends vm w "cairo").2 "q.json" []).1 (by decide)
  · exact (C61_other_commands vm w).2.2 "cairo" "compile" [] (by decide)

end Verif.Props
