import Verif.Proofs.Start
import Verif.Spec.Demo
/-!
Property C94: the settings of the configuration; and C72 for the whole process.
-/
set_option linter.unusedSectionVars false
set_option linter.unusedSimpArgs false
set_option linter.unusedVariables false
namespace Metis.Props.StartP
open Metis Spec
open _root_.Metis.Start
variable {os : Os} {es : Nat → Env} {path t : Bytes} {addr : Listen.Addr} {cfg : Config} {lvl : Level} {node : Node} {a b c d : UInt8}

/-- A configuration like the one in the repository, for the local machine only. -/
def local_ : Config :=
  { host := b!"127.0.0.1", port := 6379, logFile := b!"./logs/redis.log", logLevel := b!"debug", databases := 16, password := [], aof := true,
    aofFile := b!"appendonly.aof", fsync := b!"everysec", percent := 100, minSize := 67108864 }

/-- A machine on which all goes well. -/
def machine (c : Config) : Os :=
  { config := fun p t => if t = b!"toml" then some c else none, logger := fun _ _ => true, file := fun _ => some [], parse6 := fun _ => none,
    listen := fun _ => true, epoll := true }

def toml : Bytes := b!"./config.toml"

theorem toml_ext : HasExt toml b!"toml" := ⟨⟨b!"./config", by decide⟩, by decide, by decide⟩

theorem local_host : local_.host = dotted 127 0 0 1 := by decide

theorem local_up (es : Nat → Env) : main (machine local_) es toml = .up ([0, 0, 0, 0], 6379) .debug (.boot 16 [] true ⟨100, 67108864, .everysec⟩) := by
  have h1 : configType toml = some b!"toml" := (configType_some _ _).2 toml_ext
  have h2 : (machine local_).config toml b!"toml" = some local_ := rfl
  have h3 : Listen.bind (machine local_).parse6 local_.host local_.port = some ([0, 0, 0, 0], 6379) := by rw [local_host]; exact Listen.bind_dotted _ _ _ _ _ _
  have h4 : dbNum local_.databases = 16 := by decide
  unfold main
  rw [h1]
  simp only [h2]
  show serve (machine local_) es local_ = _
  unfold serve
  rw [show (if local_.aof then (machine local_).file local_.aofFile else some []) = some [] from rfl]
  simp only [h4]
  rw [if_neg (by decide)]
  unfold run
  rw [h3]
  simp only [h4]
  rw [show Node.start (conf local_) [] (Server.init 16 local_.password local_.aof) = Node.start ⟨100, 67108864, .everysec⟩ [] (Server.init 16 [] true) from by
    congr 1]
  rw [restart_new]
  rfl

/-- **C72 for the whole process**: with every IPv4 address in the configuration, a process that has started listens on 0.0.0.0, with the port of the
configuration. -/
theorem C72_started (hx : HasExt path t) (hc : os.config path t = some cfg) (hh : cfg.host = dotted a b c d) (h : main os es path = .up addr lvl node) :
    addr = ([0, 0, 0, 0], cfg.port) := by
  obtain ⟨u, c', file, h1, h2, _, _, _, h3, _⟩ := main_up h
  cases ext_unique hx h1
  rw [hc] at h2
  cases h2
  rw [hh, Listen.bind_dotted] at h3
  cases h3; rfl

/-- The hypotheses are met. -/
example : ∃ node, main (machine local_) (fun _ => demo 0) toml = .up ([0, 0, 0, 0], 6379) .debug node := ⟨_, local_up _⟩

/-! ### C94 -/

/-- The full claim of C94: whatever the name of its file, a configuration that can be read is obeyed, and on a willing machine the server starts (unless
the append-only file cannot be loaded). -/
def C94 : Prop := ∀ (os : Os) (es : Nat → Env) (path : Bytes) (cfg : Config) (a b c d : UInt8), (∀ t, os.config path t = some cfg) → Willing os cfg →
  cfg.host = dotted a b c d → os.file cfg.aofFile = some [] → ∃ addr lvl node, main os es path = .up addr lvl node ∧ Obeys cfg addr.2 lvl node

/-- **C94 refuted**: a file without an extension crashes the process. -/
theorem C94_refuted : ¬ C94 := by
  intro h
  obtain ⟨_, _, _, h, _⟩ := h { machine local_ with config := fun _ _ => some local_ } (fun _ => demo 0) b!"/etc/metis.d/metis" local_ 127 0 0 1 (fun _ => rfl)
    ⟨fun _ => rfl, ⟨_, rfl⟩, fun _ => rfl, rfl⟩ local_host rfl
  unfold main at h
  rw [show configType b!"/etc/metis.d/metis" = none from by decide] at h
  cases h

/-- **C94, partial (settings)**: a process that has started obeys a sensible configuration. -/
theorem C94_partial (hx : HasExt path t) (hc : os.config path t = some cfg) (hs : Sensible cfg) (h : main os es path = .up addr lvl node) :
    Obeys cfg addr.2 lvl node := by
  obtain ⟨u, c', file, h1, h2, _, _, _, hb, _, _, h5, h6⟩ := main_up h
  cases ext_unique hx h1
  rw [hc] at h2
  cases h2
  obtain ⟨r1, r2, r3, r4⟩ := restart_alike h6
  obtain ⟨l, hl⟩ := hs.level
  obtain ⟨p, hp⟩ := hs.fsync
  have hd := hs.dbs
  have h4 : addr.2 = cfg.port := by
    unfold Listen.bind at hb
    split at hb
    · cases hb
    · cases hb; rfl
  refine ⟨h4, ?_, ?_, r3, r4, ?_, ?_, ?_⟩
  · rw [h5, hl, level_word]
  · rw [r2]
    have : (Node.start (conf cfg) file (Server.init (dbNum cfg.databases) cfg.password cfg.aof)).sys.srv.dbs.length = dbNum cfg.databases := by
      simp [Node.start, Server.init]
    rw [this]
    unfold dbNum
    rw [if_pos (by omega)]
    omega
  · rw [r1]
    show policyWord (policy cfg.fsync) = _
    rw [hp, policy_word]
  · rw [r1]; rfl
  · rw [r1]; rfl

/-- **C94, partial (start)**: on a willing machine, with a file name that has an extension, an IPv4 address and at most 2^45 databases, the server starts
if the append-only file can be loaded. -/
theorem C94_starts (hx : HasExt path t) (hc : os.config path t = some cfg) (hw : Willing os cfg) (hh : cfg.host = dotted a b c d)
    (hn : cfg.databases ≤ 2 ^ 45) {file : Bytes} (hf : os.file cfg.aofFile = some file)
    (hl : cfg.aof = true → ∃ n, Node.restart es (Node.start (conf cfg) file (Server.init (dbNum cfg.databases) cfg.password true)) = some n) :
    ∃ node, main os es path = .up ([0, 0, 0, 0], cfg.port) (level cfg.logLevel) node := by
  have h3 : Listen.bind os.parse6 cfg.host cfg.port = some ([0, 0, 0, 0], cfg.port) := by rw [hh]; exact Listen.bind_dotted _ _ _ _ _ _
  have hm : ¬ dbNum cfg.databases > maxSlice := by
    unfold dbNum maxSlice
    have e1 : (2 : Int) ^ 45 = 35184372088832 := by decide
    have e2 : (2 : Nat) ^ 45 = 35184372088832 := by decide
    rw [e1] at hn
    rw [e2]
    split <;> omega
  have hr : ∃ f n, (if cfg.aof then os.file cfg.aofFile else some []) = some f ∧
      Node.restart es (Node.start (conf cfg) f (Server.init (dbNum cfg.databases) cfg.password cfg.aof)) = some n := by
    cases ha : cfg.aof
    · exact ⟨[], _, rfl, restart_new ..⟩
    · obtain ⟨n, hn⟩ := hl ha
      exact ⟨file, n, by rw [if_pos rfl]; exact hf, hn⟩
  obtain ⟨f, n, hr1, hr2⟩ := hr
  refine ⟨n, ?_⟩
  unfold main
  rw [(configType_some path t).2 hx]
  simp only [hc]
  rw [if_pos (hw.logger _)]
  unfold serve
  rw [hr1]
  simp only
  rw [if_neg hm]
  unfold run
  rw [h3]
  simp only
  rw [if_pos (hw.listen _), if_pos hw.epoll, hr2]

/-- **C94, the crash**: without an extension in the last element of the path the process crashes before it has read anything. -/
theorem C94_crash (h : ∀ t, ¬ HasExt path t) (os : Os) (es : Nat → Env) : main os es path = .panic := by
  unfold main
  rw [(configType_none path).2 h]

/-- **C94, when it crashes**: on a willing machine there are only three reasons. -/
theorem C94_only (hw : ∀ c, Willing os c) (h : main os es path = .panic) :
    (∀ t, ¬ HasExt path t) ∨ ∃ t c, HasExt path t ∧ os.config path t = some c ∧ (2 ^ 45 < c.databases ∨
      (c.aof = true ∧ ∃ f, os.file c.aofFile = some f ∧ Node.restart es (Node.start (conf c) f (Server.init (dbNum c.databases) c.password true)) = none)) := by
  cases ht : configType path with
  | none => exact .inl ((configType_none path).1 ht)
  | some t =>
    right
    unfold main at h
    rw [ht] at h
    simp only at h
    cases hc : os.config path t with
    | none => rw [hc] at h; cases h
    | some c =>
      refine ⟨t, c, (configType_some path t).1 ht, hc, ?_⟩
      rw [hc] at h
      simp only at h
      rw [if_pos ((hw c).logger _)] at h
      unfold serve at h
      cases hf : (if c.aof then os.file c.aofFile else some []) with
      | none => rw [hf] at h; cases h
      | some f =>
        rw [hf] at h
        simp only at h
        by_cases hm : dbNum c.databases > maxSlice
        · left
          unfold dbNum maxSlice at hm
          have e1 : (2 : Int) ^ 45 = 35184372088832 := by decide
          have e2 : (2 : Nat) ^ 45 = 35184372088832 := by decide
          rw [e1]
          rw [e2] at hm
          split at hm <;> omega
        · rw [if_neg hm] at h
          right
          unfold run at h
          cases hb : Listen.bind os.parse6 c.host c.port with
          | none => rw [hb] at h; cases h
          | some ad =>
            rw [hb] at h
            simp only at h
            rw [if_pos ((hw c).listen _), if_pos (hw c).epoll] at h
            cases ha : c.aof with
            | false =>
              rw [ha] at hf h
              cases hf
              rw [restart_new] at h
              cases h
            | true =>
              rw [ha] at hf h
              refine ⟨rfl, f, hf, ?_⟩
              cases hr : Node.restart es (Node.start (conf c) f (Server.init (dbNum c.databases) c.password true)) with
              | none => rfl
              | some n => rw [hr] at h; cases h

/-- **C94, the other crashes**: with more than 2^45 databases, or with an append-only file that makes the load crash, a willing machine crashes. -/
theorem C94_causes (hx : HasExt path t) (hc : os.config path t = some cfg) (hw : Willing os cfg) :
    (2 ^ 45 < cfg.databases → (cfg.aof = true → ∃ f, os.file cfg.aofFile = some f) → main os es path = .panic) ∧
    (cfg.aof = true → cfg.databases ≤ 2 ^ 45 → cfg.host = dotted a b c d → ∀ f, os.file cfg.aofFile = some f →
      Node.restart es (Node.start (conf cfg) f (Server.init (dbNum cfg.databases) cfg.password true)) = none → main os es path = .panic) := by
  have e1 : (2 : Int) ^ 45 = 35184372088832 := by decide
  have e2 : (2 : Nat) ^ 45 = 35184372088832 := by decide
  have hmain : main os es path = serve os es cfg := by
    unfold main
    rw [(configType_some path t).2 hx]
    simp only [hc]
    rw [if_pos (hw.logger _)]
  rw [hmain]
  refine ⟨fun hd hf => ?_, fun ha hd hh f hf hr => ?_⟩
  · have hm : dbNum cfg.databases > maxSlice := by
      unfold dbNum maxSlice
      rw [e1] at hd
      rw [e2]
      split <;> omega
    obtain ⟨f, hf⟩ : ∃ f, (if cfg.aof then os.file cfg.aofFile else some []) = some f := by
      cases ha : cfg.aof with
      | false => exact ⟨[], rfl⟩
      | true => rw [if_pos rfl]; exact hf ha
    unfold serve
    rw [hf]
    simp only
    rw [if_pos hm]
  · have hm : ¬ dbNum cfg.databases > maxSlice := by
      unfold dbNum maxSlice
      rw [e1] at hd
      rw [e2]
      split <;> omega
    have h3 : Listen.bind os.parse6 cfg.host cfg.port = some ([0, 0, 0, 0], cfg.port) := by rw [hh]; exact Listen.bind_dotted _ _ _ _ _ _
    unfold serve
    rw [ha, if_pos rfl, hf]
    simp only
    rw [if_neg hm]
    unfold run
    rw [h3]
    simp only
    rw [if_pos (hw.listen _), if_pos hw.epoll, ha, hr]

/-- **C94, the first start**: a new append-only file gives the empty server from which the other properties start. -/
theorem C94_first (hx : HasExt path t) (hc : os.config path t = some cfg) (h : main os es path = .up addr lvl node)
    (hf : cfg.aof = true → os.file cfg.aofFile = some []) : node = .boot (dbNum cfg.databases) cfg.password cfg.aof (conf cfg) := by
  obtain ⟨u, c', file, h1, h2, _, h3, _, _, _, _, _, h6⟩ := main_up h
  cases ext_unique hx h1
  rw [hc] at h2
  cases h2
  have : file = [] := by
    cases ha : cfg.aof with
    | false => rw [ha] at h3; cases h3; rfl
    | true => rw [ha, if_pos rfl, hf ha] at h3; cases h3; rfl
  subst this
  rw [restart_new] at h6
  cases h6; rfl

/-- **C94, other values**: without a number of databases there are 16; unknown words count as info and no. -/
theorem C94_default (hx : HasExt path t) (hc : os.config path t = some cfg) (h : main os es path = .up addr lvl node) :
    (cfg.databases ≤ 0 → node.sys.srv.dbs.length = 16) ∧ ((∀ l, cfg.logLevel ≠ levelWord l) → lvl = .info) ∧
    ((∀ p, cfg.fsync ≠ policyWord p) → node.conf.policy = .no) := by
  obtain ⟨u, c', file, h1, h2, _, _, _, _, _, _, h5, h6⟩ := main_up h
  cases ext_unique hx h1
  rw [hc] at h2
  cases h2
  obtain ⟨r1, r2, r3, r4⟩ := restart_alike h6
  refine ⟨fun hd => ?_, fun hl => ?_, fun hp => ?_⟩
  · rw [r2]
    have : (Node.start (conf cfg) file (Server.init (dbNum cfg.databases) cfg.password cfg.aof)).sys.srv.dbs.length = dbNum cfg.databases := by
      simp [Node.start, Server.init]
    rw [this]
    unfold dbNum
    rw [if_neg (by omega)]
  · rw [h5, level_unknown hl]
  · rw [r1]; exact policy_unknown hp

/-- The hypotheses of C94 are met. -/
example : Sensible local_ := ⟨⟨.debug, by decide⟩, ⟨.everysec, by decide⟩, by decide⟩
example : ∀ c, Willing (machine local_) c := fun c => ⟨fun _ => rfl, ⟨_, rfl⟩, fun _ => rfl, rfl⟩
example : ∀ t, ¬ HasExt b!"/etc/metis.d/metis" t := (configType_none _).1 (by decide)
example : HasExt b!"/etc/metis.d/a.b.yaml" b!"yaml" := (configType_some _ _).1 (by decide)
example : ∀ es, Node.restart es (Node.start (conf local_) b!"*2\r\n$4\r\nspop" (Server.init 16 [] true)) = none := by
  intro es
  have h : Aof.parse Aof.readerSize b!"*2\r\n$4\r\nspop" = none := by decide
  unfold Node.restart
  simp only [show (Node.start (conf local_) b!"*2\r\n$4\r\nspop" (Server.init 16 [] true)).file = b!"*2\r\n$4\r\nspop" from rfl,
    show (Server.init (Node.start (conf local_) b!"*2\r\n$4\r\nspop" (Server.init 16 [] true)).sys.srv.dbs.length
      (Node.start (conf local_) b!"*2\r\n$4\r\nspop" (Server.init 16 [] true)).sys.srv.password
      (Node.start (conf local_) b!"*2\r\n$4\r\nspop" (Server.init 16 [] true)).sys.srv.aofEnable).aofEnable = true from rfl, if_true]
  unfold Aof.load
  rw [h]
  rfl
example : ∀ p, b!"sometimes" ≠ policyWord p := by intro p; cases p <;> decide

end Metis.Props.StartP
