import Verif.Props.Main
import Verif.Props.DecAttack
/-!
# C69, C70: pass phrases, and signed containers on the command line
-/

namespace Sigtool
open Spec

/-- The command line leaves the pass phrase to the terminal: a command that may need one, with neither `--no-password` nor
`--env-password`; `encrypt` only with `--sign`. -/
inductive Spec.MayAsk (W : World) (argv : List Bytes) : Prop
  | gen (rest o args) : Runs W argv "generate" rest → W.flags.gen rest = .ok o args → o.nopw = false → o.envpw = [] → MayAsk W argv
  | sign (rest o args) : Runs W argv "sign" rest → W.flags.sign rest = .ok o args → o.nopw = false → o.envpw = [] → MayAsk W argv
  | enc (rest o args) : Runs W argv "encrypt" rest → W.flags.enc rest = .ok o args → o.nopw = false → o.envpw = [] → o.sign ≠ [] →
      MayAsk W argv
  | dec (rest o args) : Runs W argv "decrypt" rest → W.flags.dec rest = .ok o args → o.nopw = false → o.envpw = [] → MayAsk W argv

/-- **C69** (no prompt).  Unless the command line leaves the pass phrase to the terminal, what the terminal would answer (or that
there is none) has no influence on the run. -/
theorem C69_no_prompt (W : World) (ho : W.order.Perm commands) (argv : List Bytes) (h : ¬ MayAsk W argv) (answer : Except Err Bytes) :
    World.main { W with askpass := answer } argv = W.main argv := by
  have pw : ∀ (nopw : Bool) (envpw : Bytes), (nopw = false → envpw ≠ []) →
      World.genpw { W with askpass := answer } nopw envpw = W.genpw nopw envpw ∧
      World.getpw { W with askpass := answer } nopw envpw = W.getpw nopw envpw := by
    intro nopw envpw hn
    unfold World.genpw World.getpw
    cases nopw with
    | true => exact ⟨rfl, rfl⟩
    | false => rw [if_neg (by simp), if_pos (hn rfl), if_neg (by simp), if_pos (hn rfl)]; exact ⟨rfl, rfl⟩
  by_cases hr : ∃ w rest, Runs W argv w rest
  · obtain ⟨w, rest, hr⟩ := hr
    have hw : w ∈ commandNames := by obtain ⟨_, _, _, _, _, h⟩ := hr; exact h.1
    obtain ⟨d1, d2, d3, d4, d5, d6⟩ := C66_dispatch W ho argv rest w hr
    obtain ⟨e1, e2, e3, e4, e5, e6⟩ := C66_dispatch { W with askpass := answer } ho argv rest w hr
    simp only [commandNames, List.mem_cons, List.not_mem_nil, or_false] at hw
    rcases hw with rfl | rfl | rfl | rfl | rfl | rfl
    · rw [d1 rfl, e1 rfl]
      unfold World.gen
      match hp : W.flags.gen rest with
      | .help => rfl
      | .bad => rfl
      | .ok o [] => rfl
      | .ok o (bn :: more) =>
        dsimp only
        rw [(pw o.nopw o.envpw fun h1 h2 => h (.gen rest o _ hr hp h1 h2)).1]
    · rw [d2 rfl, e2 rfl]
      unfold World.sign
      match hp : W.flags.sign rest with
      | .help => rfl
      | .bad => rfl
      | .ok o [] => rfl
      | .ok o [_] => rfl
      | .ok o (kn :: fn :: more) =>
        dsimp only
        rw [(pw o.nopw o.envpw fun h1 h2 => h (.sign rest o _ hr hp h1 h2)).2]
    · rw [d3 rfl, e3 rfl]; rfl
    · rw [d4 rfl, e4 rfl]
      unfold World.encrypt
      match hp : W.flags.enc rest with
      | .help => rfl
      | .bad => rfl
      | .ok o args =>
        dsimp only
        by_cases hs : o.sign = []
        · unfold encryptCmd
          rw [hs]
          rfl
        · rw [(pw o.nopw o.envpw fun h1 h2 => h (.enc rest o _ hr hp h1 h2 hs)).2]
          rfl
    · rw [d5 rfl, e5 rfl]
      unfold World.decrypt
      match hp : W.flags.dec rest with
      | .help => rfl
      | .bad => rfl
      | .ok o args =>
        dsimp only
        rw [(pw o.nopw o.envpw fun h1 h2 => h (.dec rest o _ hr hp h1 h2)).2]
        rfl
    · rw [d6 rfl, e6 rfl]
  · unfold World.main
    dsimp only
    match ht : W.flags.top argv with
    | .help => rfl
    | .bad => rfl
    | .ok o args =>
      dsimp only
      split
      · rfl
      · split
        · rfl
        · match args, ht with
          | [], _ => rfl
          | cmd :: rest, ht =>
            dsimp only
            match hs : selectCommand W.lower W.order cmd with
            | none => rfl
            | some v =>
              exfalso
              rename_i h1 h2
              obtain ⟨w, _, _, hw⟩ := C53_only_commands W.lower W.order ho cmd v hs
              exact hr ⟨w, rest, o, cmd, ht, by simpa using h1, by simpa using h2, hw⟩

/-- **C69** (only the pass phrase matters).  Two runs on the same world, up to the parsing of options, the environment and the
terminal: if both command lines select the same command, with the same arguments and the same options except those about the
pass phrase, and the pass phrase is the same, then the runs are the same, wherever each of them takes the pass phrase from. -/
theorem C69_sources_agree (W : World) (ho : W.order.Perm commands) (flags : Flags) (getenv : Bytes → Bytes) (ask : Except Err Bytes)
    (argv argv' : List Bytes) (W' : World) (hW' : W' = { W with flags := flags, getenv := getenv, askpass := ask })
    (rest rest' args : List Bytes) (nopw nopw' : Bool) (envpw envpw' pw : Bytes)
    (hpw : PassPhrase W nopw envpw pw) (hpw' : PassPhrase W' nopw' envpw' pw) :
    (∀ o : GenOpts, Runs W argv "generate" rest → Runs W' argv' "generate" rest' →
      W.flags.gen rest = .ok { o with nopw := nopw, envpw := envpw } args →
      W'.flags.gen rest' = .ok { o with nopw := nopw', envpw := envpw' } args → W'.main argv' = W.main argv) ∧
    (∀ o : SignOpts, Runs W argv "sign" rest → Runs W' argv' "sign" rest' →
      W.flags.sign rest = .ok { o with nopw := nopw, envpw := envpw } args →
      W'.flags.sign rest' = .ok { o with nopw := nopw', envpw := envpw' } args → W'.main argv' = W.main argv) ∧
    (∀ o : EncOpts, Runs W argv "encrypt" rest → Runs W' argv' "encrypt" rest' →
      W.flags.enc rest = .ok { o with nopw := nopw, envpw := envpw } args →
      W'.flags.enc rest' = .ok { o with nopw := nopw', envpw := envpw' } args → W'.main argv' = W.main argv) ∧
    (∀ o : DecOpts, Runs W argv "decrypt" rest → Runs W' argv' "decrypt" rest' →
      W.flags.dec rest = .ok { o with nopw := nopw, envpw := envpw } args →
      W'.flags.dec rest' = .ok { o with nopw := nopw', envpw := envpw' } args → W'.main argv' = W.main argv) := by
  have ho' : W'.order.Perm commands := by rw [hW']; exact ho
  refine ⟨fun o h1 h2 h3 h4 => ?_, fun o h1 h2 h3 h4 => ?_, fun o h1 h2 h3 h4 => ?_, fun o h1 h2 h3 h4 => ?_⟩
  · rw [(C66_dispatch W' ho' argv' rest' _ h2).1 rfl, (C66_dispatch W ho argv rest _ h1).1 rfl]
    unfold World.gen
    rw [h3, h4]
    dsimp only
    cases args with
    | nil => rfl
    | cons bn more =>
      dsimp only
      rw [hpw.genpw, hpw'.genpw, hW']
  · rw [(C66_dispatch W' ho' argv' rest' _ h2).2.1 rfl, (C66_dispatch W ho argv rest _ h1).2.1 rfl]
    unfold World.sign
    rw [h3, h4]
    dsimp only
    rw [hpw.getpw, hpw'.getpw, hW']
  · rw [(C66_dispatch W' ho' argv' rest' _ h2).2.2.2.1 rfl, (C66_dispatch W ho argv rest _ h1).2.2.2.1 rfl]
    unfold World.encrypt
    rw [h3, h4]
    dsimp only
    rw [hpw.getpw, hpw'.getpw, hW']
    rfl
  · rw [(C66_dispatch W' ho' argv' rest' _ h2).2.2.2.2.1 rfl, (C66_dispatch W ho argv rest _ h1).2.2.2.2.1 rfl]
    unfold World.decrypt
    rw [h3, h4]
    dsimp only
    rw [hpw.getpw, hpw'.getpw, hW']
    rfl

/-- The condition of the warning in `decrypt` (`src/crypt.go:334`): no sender key was given but the sender authenticated
himself. -/
def decryptWarns (P : Prims) (rd : Reader) (sk : PrivateKey) (pk : Option PublicKey) : Bool :=
  match setupDecryptor P rd sk pk with
  | .ok d => pk.isNone && d.auth
  | _ => false

/-- A successful `SetPrivateKey` found a key. -/
theorem setPrivateKey_found {P : Prims} {d0 d : Decryptor} {sk : PrivateKey} {spk : Option PublicKey}
    (h : d0.setPrivateKey P sk spk = (.ok (), d)) : ∃ key, d.key = some key ∧ OpensFor P d0.hdr sk key := by
  rcases setPrivateKey_cases P d0 sk spk with ⟨x, g1, g2⟩ | ⟨x, g1, g2⟩ | ⟨g1, g2⟩ | ⟨key, g1, g2⟩
  · rw [h] at g2; cases g2
  · rw [h] at g2; cases g2
  · rw [h] at g2; cases g2
  · refine ⟨key, ?_, findKey_opens P d0 sk key _ g1⟩
    rw [h] at g2
    revert g2
    split
    · intro g2; cases g2
    · intro g2; cases g2
    · intro g2; cases g2; rfl

/-- **C70** (the warning).  `decrypt` never prints its warning that it cannot authenticate the sender: whenever a container is
signed and no sender key is given, it fails instead. -/
theorem C70_never_warns (P : Prims) (rd : Reader) (sk : PrivateKey) (pk : Option PublicKey) : decryptWarns P rd sk pk = false := by
  unfold decryptWarns
  match hs : setupDecryptor P rd sk pk with
  | .err _ => rfl
  | .panic _ => rfl
  | .ok d =>
    dsimp only
    cases pk with
    | some _ => rfl
    | none =>
      obtain ⟨d0, rd', h1, h2⟩ := setup_split hs
      cases ha : d.auth with
      | false => rfl
      | true =>
        exfalso
        obtain ⟨key, hk, _⟩ := setPrivateKey_found h2
        obtain ⟨c1, c2, c3⟩ := C16_authenticated P rd rd' d0 h1 sk none (by simp) _ d h2 key hk
        match ho : P.aeadOpen (senderSeal P key d0.hdr.salt).1 (senderSeal P key d0.hdr.salt).2 d0.hdr.sender [] with
        | none => obtain ⟨x, hx⟩ := (c1 ho).1; cases hx
        | some sig =>
          by_cases hz : sig = unsigned
          · subst hz
            rw [(c2 ho).2] at ha; cases ha
          · have := ((c3 sig ho hz).1 rfl).1
            cases this

/-- **C70** If `decrypt` exits with 0, then the container was accepted with a root key under which its sender field opens to
"unsigned" (64 zero bytes), or to a valid signature by the key that `-v` names. So a signed container is never decrypted
without naming its signer. -/
theorem C70_signed_needs_signer (D : Deps) (fs : FS) (env : SafeEnv) (stdout : Writer) (outfile : Path) (force test : Bool)
    (keyfile : Path) (getpw : GetPw) (pubkey infile : Path) (rd : Reader)
    (h : (decryptCmd D fs env stdout outfile force test keyfile getpw pubkey infile rd).exit = 0) :
    ∃ sk d0 rd' key sig, (∃ b, fs.read keyfile = some b ∧ makePrivateKey D.P D.Y D.pem b getpw = .ok sk) ∧
      newDecryptor D.P rd = (.ok d0, rd') ∧ OpensFor D.P d0.hdr sk key ∧
      D.P.aeadOpen (senderSeal D.P key d0.hdr.salt).1 (senderSeal D.P key d0.hdr.salt).2 d0.hdr.sender [] = some sig ∧
      (sig = unsigned ∨ pubkey ≠ [] ∧ ∃ b pk, fs.read pubkey = some b ∧ makePublicKey D.P D.Y b = .ok pk ∧
        ValidSignature D.P pk.pk (senderStatement D.P d0.hdr.pk d0.hdr.salt key) sig) := by
  rcases decryptCmd_cases D fs env stdout outfile force test keyfile getpw pubkey infile rd with
    ⟨n, hn, h1⟩ | ⟨sk, pk, h1, h2, h3⟩
  · rw [h1] at h; exact absurd h hn
  · have hset : ∃ d, setupDecryptor D.P rd sk pk = .ok d := by
      rw [h3] at h
      have body : ∀ w, exitOf (decryptBody D.P rd sk pk w).1 = 0 → ∃ d, setupDecryptor D.P rd sk pk = .ok d := by
        intro w hw
        unfold decryptBody at hw
        match hs : setupDecryptor D.P rd sk pk with
        | .ok d => exact ⟨d, rfl⟩
        | .err x => rw [hs] at hw; cases hw
        | .panic x => rw [hs] at hw; cases hw
      split at h
      · exact body _ h
      · unfold withOutput at h
        split at h
        · exact body _ h
        · split at h
          · cases h
          · cases h
          · exact body _ h
    obtain ⟨d, hset⟩ := hset
    obtain ⟨d0, rd', g1, g2⟩ := setup_split hset
    obtain ⟨key, hk, hop⟩ := setPrivateKey_found g2
    rcases h2 with ⟨_, rfl⟩ | ⟨hne, b, p, k1, k2, rfl⟩
    · obtain ⟨c1, c2, c3⟩ := C16_authenticated D.P rd rd' d0 g1 sk none (by simp) _ d g2 key hk
      match ho : D.P.aeadOpen (senderSeal D.P key d0.hdr.salt).1 (senderSeal D.P key d0.hdr.salt).2 d0.hdr.sender [] with
      | none => obtain ⟨x, hx⟩ := (c1 ho).1; cases hx
      | some sig =>
        refine ⟨sk, d0, rd', key, sig, h1, g1, hop, ho, .inl ?_⟩
        by_cases hz : sig = unsigned
        · exact hz
        · have := ((c3 sig ho hz).1 rfl).1
          cases this
    · obtain ⟨key', sig, c1, c2, c3⟩ := C15_sender_partial D.P rd rd' d0 g1 sk p d g2
      rw [hk] at c1
      cases c1
      refine ⟨sk, d0, rd', key, sig, h1, g1, hop, c2, ?_⟩
      rcases c3 with ⟨_, c3⟩ | ⟨_, c3⟩
      · exact .inr ⟨hne, b, p, k1, k2, c3⟩
      · exact .inl c3

end Sigtool
