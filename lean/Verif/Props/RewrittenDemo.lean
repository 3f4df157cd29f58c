import Verif.Props.Rewritten
/-!
# C139: concrete cases
-/

namespace Sigtool
open Spec

theorem Demo.receiving_bob : Receiving toyPrims (some Demo.alice) Demo.rcpts Demo.bob (List.replicate 32 2) (some Demo.alice.pub) where
  hseed := by simp
  hsk := rfl
  hpk := rfl
  listed := ⟨(Demo.bob.pub, List.replicate 12 4), by simp [Demo.rcpts], rfl⟩
  named := by intro s hs; cases hs; exact ⟨_, rfl, rfl⟩

theorem Demo.no_forgery_bob : ¬ ∃ r ∈ Demo.rcpts, WrapForgery toyPrims (clamp Demo.coins.csk) Demo.coins.salt Demo.coins.key r.1.pk r.2
    (List.replicate 32 2) := by
  rintro ⟨r, hr, hne, epk, w, k, h1, h2, h3⟩
  simp only [Demo.rcpts, List.mem_cons, List.not_mem_nil, or_false] at hr
  rcases hr with rfl | rfl
  · exact hne rfl
  · have e1 : epk = List.replicate 32 5 := by
      have h := h1.symm
      simp only [toyPrims] at h
      rw [if_pos (by decide)] at h
      exact Option.some.inj h
    subst e1
    have e2 : w = ⟨List.replicate 32 8 ++ toyTag (wrappingKey toyPrims (List.replicate 32 5) (List.replicate 32 9)
        (List.replicate 12 5)).1 (wrappingKey toyPrims (List.replicate 32 5) (List.replicate 32 9)
        (List.replicate 12 5)).2 (List.replicate 32 8) Demo.carol.pub.pk, List.replicate 12 5, []⟩ := by
      have := Option.some.inj h2
      exact this.symm
    subst e2
    have h4 : (unwrapAs toyPrims (List.replicate 32 2) (toyPrims.edPub (List.replicate 32 2)) (List.replicate 32 5)
      Demo.coins.salt ⟨List.replicate 32 8 ++ toyTag (wrappingKey toyPrims (List.replicate 32 5) (List.replicate 32 9)
        (List.replicate 12 5)).1 (wrappingKey toyPrims (List.replicate 32 5) (List.replicate 32 9)
        (List.replicate 12 5)).2 (List.replicate 32 8) Demo.carol.pub.pk, List.replicate 12 5, []⟩).isNone = true := by
      decide +kernel
    rw [h3] at h4
    cases h4

/-- Bob, to whom Alice's message was also sent, makes a file that says `[9, 9, 9]`, and Carol reads that, from Alice. -/
example : ∃ e bytes file d2 d2' wr', Sending toyPrims (some Demo.alice) 4 Demo.coins Demo.rcpts e [1, 2, 3, 4, 5, 6]
    [[1, 2, 3, 4], [5, 6]] bytes ∧ Meddled toyPrims bytes Demo.bob [9, 9, 9] file ∧
    setupDecryptor toyPrims ⟨[file], .eof, false⟩ Demo.carol (some Demo.alice.pub) = .ok d2 ∧ d2.auth = true ∧
    d2.decrypt toyPrims Demo.dest = (.ok (), d2', wr') ∧ wr'.out = [9, 9, 9] := by
  obtain ⟨e, bytes, hs⟩ := Demo.sending_stream
  rcases C139_sent toyPrims toyLaws _ _ _ _ e _ _ bytes hs _ _ _ _ _ _ Demo.receiving_bob Demo.receiving
    ⟨[bytes], .eof, false⟩ (by simp [Reader.content]) with ⟨r, h1, h2⟩ | ⟨h1, h2, d, h3, h4⟩
  · rcases h2 with h2 | h2
    · exact absurd ⟨r, h1, h2⟩ Demo.no_forgery_bob
    · exact absurd ⟨r, h1, h2⟩ Demo.no_forgery
  · obtain ⟨file, hf⟩ := h2 [9, 9, 9]
    obtain ⟨d2, d2', wr', k1, k2, k3, k4⟩ := C139_rewrite_refuted toyPrims toyLaws bytes file _ _ _ (by decide +kernel) h1 hf
      (some Demo.alice.pub) ⟨[bytes], .eof, false⟩ (by simp [Reader.content]) d h3 ⟨[file], .eof, false⟩
      (by simp [Reader.content]) Demo.dest Demo.dest_noFail
    exact ⟨e, bytes, file, d2, d2', wr', hs, hf, k1, by rw [k2, h4], k3, k4⟩

end Sigtool

namespace Sigtool.RewrittenDemo
open Sigtool Spec CliDemo MainDemo SuccessDemo

/-- `sigtool dec -v id.pub id`, with this on standard input. -/
def X (file : Bytes) : World := { SshDemo.X with stdin := ⟨[file], .eof, false⟩ }

theorem xRuns (file : Bytes) : Runs (X file) SshDemo.xv "decrypt" [ascii "-v", ascii "id.pub", ascii "id"] :=
  by have h := SuccessDemo.xRuns; unfold Runs at h ⊢; exact h

theorem xFlags (file : Bytes) : (X file).flags.dec [ascii "-v", ascii "id.pub", ascii "id"] =
    .ok { sender := ascii "id.pub", envpw := ascii "PW" } [ascii "id"] := by rfl

theorem xNormal (file : Bytes) : Normal (X file) SshDemo.xv where
  fresh1 := ssh_fresh "t7" 7 (by decide +kernel) (by decide)
  fresh2 := ssh_fresh "t8" 8 (by decide +kernel) (by decide)
  tmp := by show ascii "t8" ≠ ascii "t7"; decide +kernel
  inode := by show (8 : Nat) ≠ 7; decide
  out := by
    intro p hp
    cases hp with
    | key _ _ _ _ hr => exact absurd (runs_unique (xRuns file) hr).1 (by decide)
    | pub _ _ _ _ hr => exact absurd (runs_unique (xRuns file) hr).1 (by decide)
    | sig _ _ _ _ _ hr => exact absurd (runs_unique (xRuns file) hr).1 (by decide)
    | enc _ _ _ hr => exact absurd (runs_unique (xRuns file) hr).1 (by decide)
    | dec _ _ _ hr h =>
      obtain ⟨_, rfl⟩ := runs_unique (xRuns file) hr
      rw [xFlags file] at h; cases h
      show ([] : Bytes) ≠ ascii "t7" ∧ ([] : Bytes) ≠ ascii "t8"
      exact ⟨by decide +kernel, by decide +kernel⟩
  order := by exact commands.reverse_perm
  coins := SuccessDemo.xNormal.coins
  coin := SuccessDemo.xNormal.coin

/-- From what `encrypt -s` wrote, someone who can decrypt it makes a file for which `decrypt -v` exits with 0 and prints "evil". -/
example : ∃ file, ((X file).main SshDemo.xv).exit = 0 ∧ ((X file).main SshDemo.xv).stdout = ascii "evil" := by
  obtain ⟨plain, ⟨keyfile, rd, secret, spk, auth, rest, h1, h2, h3, h4⟩, _⟩ := C92_decrypt_output SshDemo.X toyLaws SshDemo.xv _ _
    SuccessDemo.xNormal SuccessDemo.xRuns { sender := ascii "id.pub", envpw := ascii "PW" } rfl rfl
    (fun h => absurd (.inl rfl) h) (by decide +kernel)
  cases h1
  have h2' : ∀ file, PrivateFile (X file) false (ascii "PW") (ascii "id") secret := by
    intro file
    obtain ⟨b, hb, ht⟩ := h2
    refine ⟨b, hb, ?_⟩
    have hp : PassPhrase (X file) false (ascii "PW") = PassPhrase SshDemo.X false (ascii "PW") := by
      funext pw
      refine propext ⟨fun h => ?_, fun h => ?_⟩
      · cases h with
        | none h => exact .none h
        | env h1 h2 => exact .env h1 h2
        | typed _ h1 h2 h3 => exact .typed _ h1 h2 h3
      · cases h with
        | none h => exact .none h
        | env h1 h2 => exact .env h1 h2
        | typed _ h1 h2 h3 => exact .typed _ h1 h2 h3
    rw [hp]
    exact ht
  have h3' : ∀ file, NamedSender (X file) (ascii "id.pub") spk := by
    intro file
    rcases h3 with h | ⟨k1, k2, k3, ⟨b, k4, k5⟩, k6, k7⟩
    · exact .inl h
    · exact .inr ⟨k1, k2, k3, ⟨b, k4, k5⟩, k6, k7⟩
  obtain ⟨b, _, h5⟩ := h2
  have hl : secret.length = 64 := privateText_length h5
  have hl : 32 ≤ (privateOf SshDemo.X.D.P secret).sk.length := by unfold privateOf; dsimp only; omega
  have hw : ({} : Writer).NoFail := by intro k e h; cases h
  obtain ⟨d, _, _, hd, _⟩ := (C87_exact SshDemo.X.D.P toyLaws SshDemo.X.stdin _ hl spk {} hw _ _ _).mpr h4
  obtain ⟨hb, h, key, body, ho, _⟩ := h4
  have hz := ho.size.2
  refine ⟨rewritten toyPrims hb key (ascii "evil"), ?_⟩
  obtain ⟨g1, g2, _⟩ := C139_command_refuted (X (rewritten toyPrims hb key (ascii "evil"))) toyLaws SshDemo.xv _ _ (xNormal _) (xRuns _)
    { sender := ascii "id.pub", envpw := ascii "PW" } (xFlags _) (ascii "id") _ secret spk (.stdin _) (h2' _) (h3' _)
    SshDemo.X.stdin.content (ascii "evil") (privateOf SshDemo.X.D.P secret)
    ⟨hb, h, key, body, hz, ho.layout, ho.decodes, ho.opened, ho.opened⟩
    ⟨hb, h, key, body, hz, ho.layout, ho.decodes, ho.opened, List.append_nil _⟩
    SshDemo.X.stdin rfl d hd rfl ⟨fun _ a e h => (by cases h), fun h => absurd (.inl rfl) h⟩ (.inl (.inl rfl))
  exact ⟨g1, (g2 (.inl rfl)).1⟩

end Sigtool.RewrittenDemo
