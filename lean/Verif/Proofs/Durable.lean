import Verif.Proofs.Local
import Verif.Proofs.Node
import Verif.Props.AofLoad
/-!
What the append-only file gives when it is loaded, through flushes, rewrites and restarts.
-/
set_option linter.unusedSectionVars false
set_option linter.unusedSimpArgs false
set_option linter.unusedVariables false
namespace Metis
open Spec

/-! ### Databases as functions -/

/-- The views of the databases. -/
def vw (dbs : List Db) (i : Nat) : AS := (dbs[i]?).elim AS.empty Db.view

/-- All databases empty. -/
def noData : Nat → AS := fun _ => AS.empty

def updN (S : Nat → AS) (i : Nat) (s : AS) : Nat → AS := fun j => if i = j then s else S j

theorem vw_get {dbs : List Db} {i : Nat} {d : Db} (h : dbs[i]? = some d) : vw dbs i = d.view := by simp [vw, h]

theorem vw_out {dbs : List Db} {i : Nat} (h : dbs.length ≤ i) : vw dbs i = AS.empty := by
  simp [vw, List.getElem?_eq_none h]

theorem vw_set {dbs : List Db} {i : Nat} (hi : i < dbs.length) (d : Db) : vw (dbs.set i d) = updN (vw dbs) i d.view := by
  funext j
  unfold vw updN
  rw [List.getElem?_set]
  split
  · next h => subst h; simp [hi]
  · rfl

theorem vw_same {a b : List Db} (hl : b.length = a.length) (h : ∀ (i : Nat) (d d' : Db), a[i]? = some d → b[i]? = some d' → d'.view = d.view) : vw b = vw a := by
  funext i
  by_cases hi : i < a.length
  · obtain ⟨d, hd⟩ := get_lt (l := a) (i := i) hi
    obtain ⟨d', hd'⟩ := get_lt (l := b) (i := i) (by omega)
    rw [vw_get hd, vw_get hd', h i d d' hd hd']
  · rw [vw_out (by omega), vw_out (by omega)]

theorem vw_init (n : Nat) (pw : Bytes) (aof : Bool) : vw (Server.init n pw aof).dbs = noData := by
  funext i
  unfold vw noData
  cases h : (Server.init n pw aof).dbs[i]? with
  | none => rfl
  | some d =>
    have : d = Db.new := by
      simp only [Server.init] at h
      exact List.eq_of_mem_replicate (List.mem_of_getElem? h)
    subst this
    rfl

section
variable {hash : Bytes → Nat} {lower : Bytes → Bytes} {pf : Bytes → Option F64} {T : Int} {N : Nat}

/-! ### Copies and replays -/

/-- The databases `b` are copies of `S`. -/
structure Copies (hash : Bytes → Nat) (T : Int) (N : Nat) (S : Nat → AS) (b : List Db) : Prop where
  len  : b.length = N
  good : ∀ (i : Nat) (d : Db), b[i]? = some d → d.Good hash
  sim  : ∀ (i : Nat) (d : Db), b[i]? = some d → Sim T (S i) d.view

theorem Copies.get {S : Nat → AS} {b : List Db} (h : Copies hash T N S b) {i : Nat} (hi : i < N) :
    ∃ d, b[i]? = some d ∧ d.Good hash ∧ Sim T (S i) d.view := by
  obtain ⟨d, hd⟩ := get_lt (l := b) (i := i) (by rw [h.len]; exact hi)
  exact ⟨d, hd, h.good i d hd, h.sim i d hd⟩

theorem Copies.set {S : Nat → AS} {b : List Db} (h : Copies hash T N S b) (i : Nat) {s : AS} {d : Db} (g : d.Good hash) (hs : Sim T s d.view) :
    Copies hash T N (updN S i s) (b.set i d) := by
  refine ⟨by simp [h.len], fun j x hx => ?_, fun j x hx => ?_⟩
  · rw [List.getElem?_set] at hx
    split at hx
    · split at hx
      · cases hx; exact g
      · cases hx
    · exact h.good j x hx
  · rw [List.getElem?_set] at hx
    unfold updN
    split at hx
    · next hij =>
      rw [if_pos hij]
      split at hx
      · cases hx; exact hs
      · cases hx
    · next hij => rw [if_neg hij]; exact h.sim j x hx

theorem copies_init (pw : Bytes) (aof : Bool) : Copies hash T N noData (Server.init N pw aof).dbs := by
  have g : SrvGood hash (Server.init N pw aof) := (init_good N pw aof).srv
  refine ⟨by simp [Server.init], g, fun i d h => ?_⟩
  have : d = Db.new := by
    simp only [Server.init] at h
    exact List.eq_of_mem_replicate (List.mem_of_getElem? h)
  subst this
  exact ⟨fun k => trivial, fun k => rfl, fun k dl h => by cases h⟩

/-- Replaying `recs` leads from copies of `S`, with database `i` selected, to copies of `S'` with database `j` selected. -/
def Moves (hash : Bytes → Nat) (lower : Bytes → Bytes) (pf : Bytes → Option F64) (T : Int) (N : Nat) (recs : List (List Bytes))
    (S : Nat → AS) (i : Nat) (S' : Nat → AS) (j : Nat) : Prop :=
  ∀ (es : Nat → Env), (∀ i, World hash lower pf T (es i)) → ∀ (srv : Server) (s : Session), Copies hash T N S srv.dbs → s.db = i →
    ∃ srv' s', Aof.replay es recs srv s = some (srv', s') ∧ s'.db = j ∧ Copies hash T N S' srv'.dbs

theorem Moves.refl (S : Nat → AS) (i : Nat) : Moves hash lower pf T N [] S i S i :=
  fun es hes srv s hc hs => ⟨srv, s, rfl, hs, hc⟩

theorem Moves.trans {a b : List (List Bytes)} {S S' S'' : Nat → AS} {i j k : Nat} (h : Moves hash lower pf T N a S i S' j)
    (h' : Moves hash lower pf T N b S' j S'' k) : Moves hash lower pf T N (a ++ b) S i S'' k := by
  intro es hes srv s hc hs
  obtain ⟨srv1, s1, p1, p2, p3⟩ := h es hes srv s hc hs
  obtain ⟨srv2, s2, q1, q2, q3⟩ := h' (fun n => es (n + a.length)) (fun n => hes _) srv1 s1 p3 p2
  exact ⟨srv2, s2, by rw [replay_append, p1, Option.bind_some]; exact q1, q2, q3⟩

theorem Moves.select (hlow : LowerOk lower) (hN : N < 2 ^ 63) {S : Nat → AS} {i j : Nat} (hj : j < N) :
    Moves hash lower pf T N [selectRec j] S i S j := by
  intro es hes srv s hc hs
  refine ⟨srv, { s with db := j }, ?_, rfl, hc⟩
  have := exec_select (e := es 0) (by rw [(hes 0).lower]; exact hlow) (s := s) (srv := srv) (i := j) (by rw [hc.len]; exact hj) (by rw [hc.len]; exact hN)
  simp [Aof.replay, this]

/-- A record of the kind that the server writes: not empty, and not a BGREWRITEAOF. -/
def RecOk (lower : Bytes → Bytes) (r : List Bytes) : Prop :=
  r ≠ [] ∧ ∀ a0 cmd, r[0]? = some a0 → lookupCommand (lower a0) = some cmd → cmd.proc ≠ .bgrewriteaof

def RecsOk (lower : Bytes → Bytes) (recs : List (List Bytes)) : Prop := ∀ r ∈ recs, RecOk lower r

theorem RecsOk.append {a b : List (List Bytes)} (ha : RecsOk lower a) (hb : RecsOk lower b) : RecsOk lower (a ++ b) := by
  intro r hr
  rcases List.mem_append.1 hr with h | h
  exacts [ha r h, hb r h]

theorem recsOk_nil : RecsOk lower [] := fun r hr => by cases hr

theorem recOk_named (hlow : LowerOk lower) (c : CmdEntry) (hc : c ∈ commandTable) (hp : c.proc ≠ .bgrewriteaof) (rest : List Bytes) :
    RecOk lower (c.name :: rest) := by
  refine ⟨by simp, fun a0 cmd h1 h2 => ?_⟩
  cases h1
  rw [lower_lookup hlow c hc] at h2
  cases h2
  exact hp

theorem recOk_select (hlow : LowerOk lower) (i : Nat) : RecOk lower (selectRec i) :=
  recOk_named hlow ⟨b!"select", .select, 2⟩ (by simp [commandTable]) (by simp) _

theorem recOk_entries (hlow : LowerOk lower) {now : Int} {args : List Bytes} {a0 : Bytes} (ha : args[0]? = some a0) {cmd : CmdEntry}
    (hl : lookupCommand (lower a0) = some cmd) (hb : cmd.proc ≠ .bgrewriteaof) {rs} (h : entries now cmd.proc args = some rs) : RecsOk lower rs := by
  have hat : ∀ l, RecOk lower (b!"expireat" :: l) := fun l => recOk_named hlow ⟨b!"expireat", .expireat, 3⟩ (by simp [commandTable]) (by simp) l
  have hset : ∀ l, RecOk lower (b!"set" :: l) := fun l => recOk_named hlow ⟨b!"set", .set, -3⟩ (by simp [commandTable]) (by simp) l
  unfold entries at h
  split at h
  · rw [Option.map_eq_some_iff] at h
    obtain ⟨n, _, rfl⟩ := h
    intro r hr
    rw [List.mem_singleton] at hr; subst hr
    exact hat _
  · rw [Option.map_eq_some_iff] at h
    obtain ⟨n, _, rfl⟩ := h
    intro r hr
    simp only [List.mem_cons, List.not_mem_nil, or_false] at hr
    rcases hr with rfl | rfl
    exacts [hset _, hat _]
  · cases h
    intro r hr
    rw [List.mem_singleton] at hr; subst hr
    refine ⟨fun hn => ?_, fun a cmd' h1 h2 => ?_⟩
    · rw [hn] at ha; cases ha
    rw [ha] at h1; cases h1
    rw [hl] at h2; cases h2
    exact hb

/-- Such records do not start a rewrite. -/
theorem replay_task : ∀ (recs : List (List Bytes)) (es : Nat → Env), (∀ i, (es i).lower = lower) → RecsOk lower recs →
    ∀ {srv srv' : Server} {s s' : Session}, Aof.replay es recs srv s = some (srv', s') → srv'.task = srv.task ∧ srv'.snapshot = srv.snapshot
  | [], es, _, _, srv, srv', s, s', h => by cases h; exact ⟨rfl, rfl⟩
  | r :: recs, es, hes, hr, srv, srv', s, s', h => by
    simp only [Aof.replay, Option.bind_eq_bind, Option.bind_eq_some_iff] at h
    obtain ⟨⟨srv1, s1⟩, h1, h2⟩ := h
    have ih := replay_task recs _ (fun i => hes _) (fun x hx => hr x (by simp [hx])) h2
    have : srv1.task = srv.task ∧ srv1.snapshot = srv.snapshot := by
      unfold Aof.exec at h1
      simp only [Option.bind_eq_bind, Option.bind_eq_some_iff] at h1
      obtain ⟨a0, ha, h⟩ := h1
      split at h
      · cases h; exact ⟨rfl, rfl⟩
      · next cmd hl =>
        simp only [Option.bind_eq_some_iff] at h
        obtain ⟨⟨srv2, s2, r'⟩, hp, h⟩ := h
        cases h
        rcases proc_db_iff cmd.proc with ⟨g, hf⟩ | hc | hc | hc
        · rw [proc_db hf] at hp
          unfold Server.onDb at hp
          simp only [Option.bind_eq_bind, Option.bind_eq_some_iff] at hp
          obtain ⟨db, _, o, _, hp⟩ := hp
          cases hp
          exact ⟨rfl, rfl⟩
        · rw [hc] at hp
          have := select_same (show Server.select (es 0) r srv s = some (_, _, r') from hp)
          subst this; exact ⟨rfl, rfl⟩
        · rw [hc] at hp
          have := auth_same (show Server.auth (es 0) r srv s = some (_, _, r') from hp)
          subst this; exact ⟨rfl, rfl⟩
        · exact absurd hc ((hr r (by simp)).2 a0 cmd ha (by rw [← hes 0]; exact hl))
    exact ⟨ih.1.trans this.1, ih.2.trans this.2⟩

/-! ### A request -/

/-- What a request did to log and data. -/
inductive Did (hash : Bytes → Nat) (lower : Bytes → Bytes) (pf : Bytes → Option F64) (T : Int) (N : Nat) (e : Env) (args : List Bytes) (srv srv' : Server) : Prop
  | quiet (buf : srv'.aofBuf = srv.aofBuf) (rbuf : srv'.aofRewriteBuf = srv.aofRewriteBuf) (sel : srv'.aofSelect = srv.aofSelect)
      (dbs : vw srv'.dbs = vw srv.dbs)
  | logged (i : Nat) (k : Bytes) (c : Cmd) (f : Env → List Bytes → AS → Option AOut) (a : AOut) (rs : List (List Bytes))
      (hi : i < N) (hk : args[1]? = some k) (hc : loggable c = true) (hf : aFn c = some f) (ha : f e args (vw srv.dbs i) = some a) (hd : a.dirty ≠ 0)
      (dbs : vw srv'.dbs = updN (vw srv.dbs) i a.s) (sel : srv'.aofSelect = i) (buf : srv'.aofBuf = srv.aofBuf ++ log rs)
      (rbuf : srv'.aofRewriteBuf = if srv.task = .aofRewrite then srv.aofRewriteBuf ++ log rs else srv.aofRewriteBuf) (hrs : RecsOk lower rs)
      (moves : ∀ (S : Nat → AS) (a' : AOut), f e args (S i) = some a' → (repeats c = true ∨ a'.dirty ≠ 0) →
        Moves hash lower pf T N rs S srv.aofSelect (updN S i a'.s) i)

theorem moves_entries (hlow : LowerOk lower) (hN : N < 2 ^ 63) {e : Env} (h0 : 0 ≤ e.now) (hT : e.now ≤ T) (hel : e.lower = lower) (hep : e.parseFloat = pf) (hlv : LevelsOk e.level)
    {args : List Bytes} {a0 : Bytes} (ha0 : args[0]? = some a0) {cmd : CmdEntry} (hl : lookupCommand (e.lower a0) = some cmd)
    (hok : Server.badArity args.length (arity cmd.proc) = false) (hp : Plain T e cmd.proc args) {sel i : Nat} (hi : i < N) {S : Nat → AS} {a : AOut}
    (ha : AStep e args (S i) cmd.proc a) (hd : repeats cmd.proc = true ∨ a.dirty ≠ 0) {rs} (hrs : entries e.now cmd.proc args = some rs) :
    Moves hash lower pf T N ((if sel ≠ i then [selectRec i] else []) ++ rs) S sel (updN S i a.s) i := by
  intro es hes srv s hc hs
  obtain ⟨d2, e1, e2, e3⟩ := hc.get hi
  have hsel := replay_select (es := es) (srv := srv) (s := s) (cur := sel) (i := i)
    (fun i => by rw [(hes _).lower]; exact hlow) hs (by rw [hc.len]; exact hi) (by rw [hc.len]; exact hN)
  obtain ⟨srv3, d3, t1, t2, t3, t4⟩ := replay_entries (es := fun n => es (n + (if sel ≠ i then [selectRec i] else []).length))
    (s := { s with db := i }) (srv := srv) (fun i => hes _) hlow h0 hT hel hep hlv ha0 hl hok hp e1 e2 e3 ha hd hrs
  refine ⟨srv3, { s with db := i }, ?_, rfl, ?_⟩
  · rw [replay_append, hsel, Option.bind_some]; exact t1
  · rw [t2]; exact hc.set i t3 t4

theorem loggable_arity {c : Cmd} (hc : loggable c = true) : 2 ≤ arity c ∨ arity c ≤ -2 := by
  revert hc; cases c <;> first | (intro h; cases h; done) | (intro _; decide)

theorem key_arg {args : List Bytes} {c : Cmd} (hc : loggable c = true) (hok : Server.badArity args.length (arity c) = false) : ∃ k, args[1]? = some k := by
  have h2 : 2 ≤ args.length := by
    have h := arity_ok hok
    rcases loggable_arity hc with h' | h'
    · have := h.1 (by omega); omega
    · omega
  exact ⟨_, List.getElem?_eq_getElem (by omega)⟩

theorem served_did (hlow : LowerOk lower) {srv : Server} {c : Session} {e : Env} {args : List Bytes} {srv' c' r}
    (hlen : srv.dbs.length = N) (hN : N < 2 ^ 63) (haof : srv.aofEnable = true) (g : SrvGood hash srv) (he : e.hash = hash) (h0 : 0 ≤ e.now) (hT : e.now ≤ T)
    (hel : e.lower = lower) (hep : e.parseFloat = pf) (hlv : LevelsOk e.level) (hp : ∀ cmd, commandOf e args = some cmd → Plain T e cmd args)
    (hlive : ∀ i k dl, (vw srv.dbs i).t k = some dl → T ≤ fl dl)
    (h : Served hash e args srv c srv' c' r) : Did hash lower pf T N e args srv srv' := by
  cases h with
  | unknown => exact .quiet rfl rfl rfl rfl
  | rejected => exact .quiet rfl rfl rfl rfl
  | select => exact .quiet rfl rfl rfl rfl
  | auth => exact .quiet rfl rfl rfl rfl
  | rewrite a0 ha cmd hl hc srv' r h =>
    obtain ⟨srv1, r1, h1, h2, h3, h4, h5, h6, h7, h8⟩ := bgRewrite_ref e he (args := args) (s := c) g
    rw [h1] at h; cases h
    exact .quiet h7 h8 h6 (by rw [h2])
  | db a0 ha cmd hl hok hauth f hf d0 hd o ho a hst hrel srv' hfeed =>
    have hpl := hp _ (commandOf_of ha hl)
    have hlt := lt_get hd
    by_cases hz : a.dirty = 0
    · rw [if_neg (by rintro ⟨_, h⟩; exact h hz)] at hfeed
      cases hfeed
      refine .quiet rfl rfl rfl ?_
      simp only
      rw [vw_set hlt]
      have hsame : o.db.view = d0.view := by
        rw [hrel.view]
        by_cases hc : cmd.proc = .zadd
        · rw [hc] at hst hpl hok
          cases hst with
          | det hc' h =>
            cases hc'
            have : arity .zadd = -4 := rfl
            have := (arity_ok hok).2
            exact zadd_quiet (by omega) hpl.1 h hz
        · exact swept_live (quiet hst hc hok hz) hT (fun k dl h => hlive c.db k dl (by rw [vw_get hd]; exact h))
      funext j
      unfold updN
      split
      · next h => subst h; rw [hsame, vw_get hd]
      · rfl
    · rw [if_pos ⟨haof, hz⟩] at hfeed
      obtain ⟨rs, q1, q2, q5, q3, q4⟩ := feed_log hl hok hfeed
      simp only at q2 q3 q4 q5
      have hw : writes cmd.proc = true := by
        cases hw : writes cmd.proc with
        | true => rfl
        | false => exact absurd (reads hst hw).2 hz
      have hlog : loggable cmd.proc = true := by
        revert hw hpl; cases cmd.proc <;> simp [writes, loggable, repeats, Plain]
      obtain ⟨k, hk⟩ := key_arg hlog hok
      obtain ⟨f', hf', ha'⟩ : ∃ f', aFn cmd.proc = some f' ∧ f' e args d0.view = some a := by
        generalize hcp : cmd.proc = cp at hst hlog
        cases hst with
        | det hc' h => exact ⟨_, hc', h⟩
        | spop => cases hlog
        | spopEmpty => cases hlog
        | randomget => cases hlog
      refine .logged c.db k cmd.proc f' a _ (by omega) hk hlog hf' (by rw [vw_get hd]; exact ha') hz ?_ q3 q2 q5 ?_ ?_
      · rw [q4]; rw [vw_set hlt, hrel.view]
      · refine RecsOk.append ?_ (recOk_entries hlow ha (by rw [← hel]; exact hl) (by intro h; rw [h] at hlog; cases hlog) q1)
        split
        · intro r hr; rw [List.mem_singleton] at hr; subst hr; exact recOk_select hlow _
        · exact recsOk_nil
      · intro S a1 h1 h2
        exact moves_entries hlow hN h0 hT hel hep hlv ha hl hok hpl (by omega) (.det hf' h1) h2 q1

/-! ### A rewrite, seen from afar -/

def isHot : AObj → Bool
  | .hash _ | .set _ => true
  | _ => false

theorem isHot_iff {o : AObj} : isHot o = true ↔ SameK o o := by
  constructor
  · intro h; cases o <;> first | (cases h; done) | constructor
  · intro h; cases h <;> rfl

/-- A key that waits to be written: the value that the goroutine has, whether it is a collection that the server still changes, the fields that have
changed since a loop over it began, the deadline. -/
abbrev Waiting := AObj × Bool × (Bytes → Bool) × Option Int

abbrev Wait := Nat → Bytes → Option Waiting

/-- What the new file without the rewrite buffer will give: what has been written (`Y`) and what waits. What will be written for a hash or a set is
`G`. -/
def planned (Y : Nat → AS) (P : Wait) (G : Nat → Bytes → AObj) : Nat → AS := fun i =>
  ⟨fun k => match P i k with | none => (Y i).v k | some (o, _, _, _) => some (if isHot o then G i k else o),
   fun k => match P i k with | none => (Y i).t k | some (_, _, _, d) => d⟩

/-- What the rewrite buffer makes of it: the present data, but in the changing collections only the fields `tch` that it touches. -/
def caught (cur : Nat → AS) (P : Wait) (tch : Nat → Bytes → Bytes → Bool) (G : Nat → Bytes → AObj) : Nat → AS := fun i =>
  ⟨fun k => match P i k with | some (o, true, _, _) => some (mix (tch i k) o (G i k)) | _ => (cur i).v k, (cur i).t⟩

def Fits (P : Wait) (G : Nat → Bytes → AObj) : Prop := ∀ i k o b f d, P i k = some (o, b, f, d) → isHot o = true → SameK o (G i k)

/-- The state of a rewrite: `R` are the records of the rewrite buffer. -/
structure Afar (hash : Bytes → Nat) (lower : Bytes → Bytes) (pf : Bytes → Option F64) (T : Int) (N : Nat) (cur : Nat → AS) (sel : Nat) (P : Wait)
    (R : List (List Bytes)) (Y : Nat → AS) (sel0 : Nat) : Prop where
  hot : ∀ i k o f d, P i k = some (o, true, f, d) → SameK o o ∧ (cur i).v k = some o
  mv  : ∃ tch, (∀ i k o f d, P i k = some (o, true, f, d) → ∀ y, f y = true → tch i k y = true) ∧
    ∀ G, Fits P G → Moves hash lower pf T N R (planned Y P G) sel0 (caught cur P tch G) sel

/-- `P` with another cell. -/
def Wait.put (P : Wait) (i : Nat) (k : Bytes) (c : Option Waiting) : Wait := fun j x => if i = j ∧ k = x then c else P j x

theorem Wait.put_at (P : Wait) (i : Nat) (k : Bytes) (c) : P.put i k c i k = c := by simp [Wait.put]
theorem Wait.put_ne (P : Wait) {i j : Nat} {k x : Bytes} (c) (h : ¬(i = j ∧ k = x)) : P.put i k c j x = P j x := by simp [Wait.put, h]

def setG (G : Nat → Bytes → AObj) (i : Nat) (k : Bytes) (o : AObj) : Nat → Bytes → AObj := fun j x => if i = j ∧ k = x then o else G j x

theorem AS.ext' {a b : AS} (hv : ∀ k, a.v k = b.v k) (ht : ∀ k, a.t k = b.t k) : a = b := by
  cases a; cases b
  simp only [AS.mk.injEq]
  exact ⟨funext hv, funext ht⟩

theorem at_ne {b : AS} {k x : Bytes} {v : Option AObj} {t : Option Int} (h : k ≠ x) : (b.at k v t).v x = b.v x ∧ (b.at k v t).t x = b.t x := by
  simp [AS.at, upd, h]

/-- The start. -/
theorem Afar.start {cur : Nat → AS} {sel : Nat} {P : Wait}
    (h1 : ∀ i k, match (cur i).v k with
      | none => P i k = none ∧ (cur i).t k = none
      | some o => P i k = some (o, isHot o, fun _ => false, (cur i).t k)) :
    Afar hash lower pf T N cur sel P [] noData sel := by
  have key : ∀ i k c, P i k = some c → (cur i).v k = some c.1 ∧ c = (c.1, isHot c.1, fun _ => false, (cur i).t k) := by
    intro i k c hc
    have := h1 i k
    cases hv : (cur i).v k with
    | none => rw [hv] at this; rw [this.1] at hc; cases hc
    | some o =>
      rw [hv] at this
      rw [this] at hc; cases hc
      exact ⟨rfl, rfl⟩
  refine ⟨fun i k o f d h => ?_, fun _ _ _ => false, fun i k o f d h y hy => ?_, fun G hG => ?_⟩
  · obtain ⟨k1, k2⟩ := key i k _ h
    exact ⟨isHot_iff.1 (congrArg (fun c : Waiting => c.2.1) k2).symm, k1⟩
  · obtain ⟨k1, k2⟩ := key i k _ h
    have : f = fun _ => false := congrArg (fun c : Waiting => c.2.2.1) k2
    rw [this] at hy; cases hy
  have : planned noData P G = caught cur P (fun _ _ _ => false) G := by
    funext i
    refine AS.ext' (fun k => ?_) (fun k => ?_)
    · cases hp : P i k with
      | none =>
        have := h1 i k
        cases hv : (cur i).v k with
        | none => simp [planned, caught, hp, hv, noData, AS.empty, nil]
        | some o => rw [hv] at this; rw [this] at hp; cases hp
      | some c =>
        obtain ⟨o, h, f, d⟩ := c
        obtain ⟨k1, k2⟩ := key i k _ hp
        have hh : h = isHot o := congrArg (fun c : Waiting => c.2.1) k2
        cases h with
        | true => simp only [planned, caught, hp, ← hh, if_true, mix_none (hG i k o _ f d hp hh.symm)]
        | false => simp only [planned, caught, hp, ← hh, k1]; rfl
    · cases hp : P i k with
      | none =>
        have := h1 i k
        cases hv : (cur i).v k with
        | none => rw [hv] at this; simp [planned, caught, hp, this.2, noData, AS.empty, nil]
        | some o => rw [hv] at this; rw [this] at hp; cases hp
      | some c =>
        obtain ⟨o, h, f, d⟩ := c
        obtain ⟨k1, k2⟩ := key i k _ hp
        have hd : d = (cur i).t k := congrArg (fun c : Waiting => c.2.2.2) k2
        simp only [planned, caught, hp, hd]
  rw [this]
  exact .refl _ _

/-- The end. -/
theorem Afar.finish {cur : Nat → AS} {sel : Nat} {P : Wait} {R : List (List Bytes)} {Y : Nat → AS} {sel0 : Nat}
    (h : Afar hash lower pf T N cur sel P R Y sel0) (hP : ∀ i k, P i k = none) : Moves hash lower pf T N R Y sel0 cur sel := by
  obtain ⟨tch, _, hm⟩ := h.mv
  have := hm (fun _ _ => .str []) (fun i k o b f d h => by rw [hP] at h; cases h)
  have e1 : planned Y P (fun _ _ => .str []) = Y := by
    funext i; exact AS.ext' (fun k => by simp [planned, hP]) (fun k => by simp [planned, hP])
  have e2 : caught cur P tch (fun _ _ => .str []) = cur := by
    funext i; exact AS.ext' (fun k => by simp [caught, hP]) (fun k => by simp [caught, hP])
  rw [e1, e2] at this
  exact this

theorem mix_more {f g : Bytes → Bool} {o o' : AObj} (h : mix f o o' = o) (hfg : ∀ y, f y = true → g y = true) : mix g o o' = o := by
  cases o with
  | hash a =>
    cases o' with
    | hash b =>
      simp only [mix, AObj.hash.injEq] at h ⊢
      funext y
      have := congrFun h y
      by_cases h1 : f y = true
      · simp [hfg y h1]
      · rw [if_neg h1] at this; simp [this]
    | _ => rfl
  | set a =>
    cases o' with
    | set b =>
      simp only [mix, AObj.set.injEq] at h ⊢
      funext y
      have := congrFun h y
      by_cases h1 : f y = true
      · simp [hfg y h1]
      · rw [if_neg h1] at this; simp [this]
    | _ => rfl
  | _ => rfl

/-- A key is written: a string as it is; a hash or a set that the server still changes as it is but for the fields that changed since the loop began; a hash or a set
that the server has lost in any way. -/
theorem Afar.write {cur : Nat → AS} {sel : Nat} {P : Wait} {R : List (List Bytes)} {Y : Nat → AS} {sel0 : Nat}
    (h : Afar hash lower pf T N cur sel P R Y sel0) {i : Nat} {k : Bytes} {o o' : AObj} {b : Bool} {f : Bytes → Bool} {d : Option Int}
    (hp : P i k = some (o, b, f, d)) (ho : isHot o = false → o' = o) (ho' : isHot o = true → SameK o o') (hb : b = true → mix f o o' = o) :
    Afar hash lower pf T N cur sel (P.put i k none) R (updN Y i ((Y i).at k (some o') d)) sel0 := by
  refine ⟨fun j x o1 f' d' hx => ?_, ?_⟩
  · by_cases hij : i = j ∧ k = x
    · obtain ⟨rfl, rfl⟩ := hij; rw [Wait.put_at] at hx; cases hx
    · rw [Wait.put_ne _ _ hij] at hx; exact h.hot j x o1 f' d' hx
  · obtain ⟨tch, ht, hm⟩ := h.mv
    refine ⟨tch, fun j x o1 f' d' hx => ?_, fun G hG => ?_⟩
    · by_cases hij : i = j ∧ k = x
      · obtain ⟨rfl, rfl⟩ := hij; rw [Wait.put_at] at hx; cases hx
      · rw [Wait.put_ne _ _ hij] at hx; exact ht j x o1 f' d' hx
    have hfit : Fits P (setG G i k o') := by
      intro j x o1 b' f' d' hx hh
      unfold setG
      by_cases hij : i = j ∧ k = x
      · rw [if_pos hij]
        obtain ⟨rfl, rfl⟩ := hij
        rw [hp] at hx; cases hx
        exact ho' hh
      · rw [if_neg hij]
        exact hG j x o1 b' f' d' (by rw [Wait.put_ne _ _ hij]; exact hx) hh
    have := hm _ hfit
    have e1 : planned Y P (setG G i k o') = planned (updN Y i ((Y i).at k (some o') d)) (P.put i k none) G := by
      funext j
      refine AS.ext' (fun x => ?_) (fun x => ?_)
      · by_cases hij : i = j ∧ k = x
        · obtain ⟨rfl, rfl⟩ := hij
          simp only [planned, hp, Wait.put_at, setG, updN, and_self, if_true, at_v]
          cases hh : isHot o with
          | true => rfl
          | false => rw [ho hh]; rfl
        · simp only [planned, Wait.put_ne _ _ hij, setG, if_neg hij, updN]
          cases hx : P j x with
          | some c => rfl
          | none =>
            simp only
            by_cases hj : i = j
            · subst hj; rw [if_pos rfl]; exact (at_ne (fun h => hij ⟨rfl, h⟩)).1.symm
            · rw [if_neg hj]
      · by_cases hij : i = j ∧ k = x
        · obtain ⟨rfl, rfl⟩ := hij
          simp only [planned, hp, Wait.put_at, updN, if_true, at_t]
        · simp only [planned, Wait.put_ne _ _ hij, updN]
          cases hx : P j x with
          | some c => rfl
          | none =>
            simp only
            by_cases hj : i = j
            · subst hj; rw [if_pos rfl]; exact (at_ne (fun h => hij ⟨rfl, h⟩)).2.symm
            · rw [if_neg hj]
    have e2 : caught cur P tch (setG G i k o') = caught cur (P.put i k none) tch G := by
      funext j
      refine AS.ext' (fun x => ?_) (fun x => rfl)
      by_cases hij : i = j ∧ k = x
      · obtain ⟨rfl, rfl⟩ := hij
        simp only [caught, Wait.put_at, hp]
        cases b with
        | false => rfl
        | true => simp only [setG, and_self, if_true, mix_more (hb rfl) (ht _ _ _ _ _ hp), (h.hot _ _ _ _ _ hp).2]
      · simp only [caught, Wait.put_ne _ _ hij, setG, if_neg hij]
    rw [e1, e2] at this
    exact this

theorem updN_at (S : Nat → AS) (i : Nat) (s : AS) : updN S i s i = s := by simp [updN]
theorem updN_ne (S : Nat → AS) {i j : Nat} (s : AS) (h : i ≠ j) : updN S i s j = S j := by simp [updN, h]

/-- What becomes of a waiting cell when the value under its key is `v` afterwards. -/
def Wait.after (c : Option Waiting) (v : Option AObj) : Option Waiting → Prop := fun c' =>
  match c with
  | some (o, true, f, d) => (∃ o' f', v = some o' ∧ SameK o o' ∧ c' = some (o', true, f', d) ∧ (∀ u, o' = mix u o' o → ∀ y, f' y = true → f y = true ∨ u y = true) ∧
      (o' = o → f' = f)) ∨
      ((∀ o', v = some o' → ¬ SameK o o') ∧ c' = some (o, false, f, d))
  | c => c' = c

/-- A logged command. -/
theorem Afar.logged {cur : Nat → AS} {sel : Nat} {P : Wait} {R rs : List (List Bytes)} {Y : Nat → AS} {sel0 : Nat}
    (h : Afar hash lower pf T N cur sel P R Y sel0) {i : Nat} {k : Bytes} {c : Cmd} {f} {e : Env} {args : List Bytes} {a : AOut}
    (hk : args[1]? = some k) (hc : loggable c = true) (hf : aFn c = some f) (ha : f e args (cur i) = some a) (hd : a.dirty ≠ 0)
    (hlive : ∀ d, (cur i).t k = some d → e.now ≤ d)
    (moves : ∀ (S : Nat → AS) (a' : AOut), f e args (S i) = some a' → (repeats c = true ∨ a'.dirty ≠ 0) →
        Moves hash lower pf T N rs S sel (updN S i a'.s) i)
    {P' : Wait} (hP : ∀ j x, Wait.after (P j x) ((updN cur i a.s j).v x) (P' j x)) :
    Afar hash lower pf T N (updN cur i a.s) i P' (R ++ rs) Y sel0 := by
  have hloc := local_cmd hf hc (e := e) hk
  have hself := (hloc.other ha rfl rfl).1
  -- other keys
  have hother : ∀ j x, ¬(i = j ∧ k = x) → (updN cur i a.s j).v x = (cur j).v x ∧ (updN cur i a.s j).t x = (cur j).t x ∧ P' j x = P j x := by
    intro j x hij
    have h1 : (updN cur i a.s j).v x = (cur j).v x ∧ (updN cur i a.s j).t x = (cur j).t x := by
      by_cases hj : i = j
      · subst hj
        rw [updN_at, hself]
        exact at_ne (fun h => hij ⟨rfl, h⟩)
      · rw [updN_ne _ _ hj]; exact ⟨rfl, rfl⟩
    refine ⟨h1.1, h1.2, ?_⟩
    have := hP j x
    rw [h1.1] at this
    unfold Wait.after at this
    split at this
    · next o f d hp =>
      obtain ⟨s1, s2⟩ := h.hot j x o f d hp
      rcases this with ⟨o', f', q1, q2, q3, _, q5⟩ | ⟨q1, _⟩
      · rw [s2] at q1; cases q1; rw [q3, q5 rfl]; exact hp.symm
      · exact absurd s1 (q1 o s2)
    · rw [this]
  obtain ⟨tch, htc, hm⟩ := h.mv
  by_cases hhot : ∃ o f d, P i k = some (o, true, f, d)
  · obtain ⟨o, fr, d, hp⟩ := hhot
    obtain ⟨s1, s2⟩ := h.hot i k o fr d hp
    have hcur : cur i = (cur i).at k (some o) ((cur i).t k) := by rw [← s2, at_self]
    have hstep := hot_cmd hf hc hk (b := cur i) s1 hlive (by rw [← hcur]; exact ha) hd
    have hPk := hP i k
    rw [updN_at, hp] at hPk
    cases hstep with
    | str w t' hs =>
      obtain ⟨a1, p1, p2, p3⟩ := hs (cur i) o
      rw [← hcur, ha] at p1; cases p1
      have hP1 : P' i k = some (o, false, fr, d) := by
        rcases hPk with ⟨o', f', q1, q2, _⟩ | ⟨_, q⟩
        · rw [p2, at_v] at q1; cases q1; cases q2
        · exact q
      refine ⟨fun j x o1 f1 d1 hx => ?_, tch, fun j x o1 f1 d1 hx => ?_, fun G hG => ?_⟩
      · by_cases hij : i = j ∧ k = x
        · obtain ⟨rfl, rfl⟩ := hij; rw [hP1] at hx; cases hx
        · obtain ⟨r1, r2, r3⟩ := hother j x hij
          rw [r3] at hx; rw [r1]; exact h.hot j x o1 f1 d1 hx
      · by_cases hij : i = j ∧ k = x
        · obtain ⟨rfl, rfl⟩ := hij; rw [hP1] at hx; cases hx
        · rw [(hother j x hij).2.2] at hx; exact htc j x o1 f1 d1 hx
      · have hfit : Fits P G := by
          intro j x o' b' f' d' hx hh
          by_cases hij : i = j ∧ k = x
          · obtain ⟨rfl, rfl⟩ := hij
            rw [hp] at hx; cases hx
            exact hG i k o _ _ _ hP1 hh
          · exact hG j x o' b' f' d' (by rw [(hother j x hij).2.2]; exact hx) hh
        have e1 : planned Y P G = planned Y P' G := by
          funext j
          refine AS.ext' (fun x => ?_) (fun x => ?_)
          · by_cases hij : i = j ∧ k = x
            · obtain ⟨rfl, rfl⟩ := hij; simp [planned, hp, hP1]
            · simp only [planned, (hother j x hij).2.2]
          · by_cases hij : i = j ∧ k = x
            · obtain ⟨rfl, rfl⟩ := hij; simp [planned, hp, hP1]
            · simp only [planned, (hother j x hij).2.2]
        have m1 := hm _ hfit
        rw [e1] at m1
        have hcell : caught cur P tch G i = (caught cur P tch G i).at k (some (mix (tch i k) o (G i k))) ((cur i).t k) := by
          have : (caught cur P tch G i).v k = some (mix (tch i k) o (G i k)) := by simp [caught, hp]
          rw [← this]; exact (at_self _ _).symm
        obtain ⟨a2, w1, w2, w3⟩ := hs (caught cur P tch G i) (mix (tch i k) o (G i k))
        rw [← hcell] at w1
        have m2 := moves (caught cur P tch G) a2 w1 (Or.inr w3)
        have e2 : updN (caught cur P tch G) i a2.s = caught (updN cur i a.s) P' tch G := by
          funext j
          refine AS.ext' (fun x => ?_) (fun x => ?_)
          · by_cases hij : i = j ∧ k = x
            · obtain ⟨rfl, rfl⟩ := hij
              rw [updN_at, w2, at_v]
              simp only [caught, hP1, updN_at, p2, at_v]
            · obtain ⟨r1, r2, r3⟩ := hother j x hij
              have : (updN (caught cur P tch G) i a2.s j).v x = (caught cur P tch G j).v x := by
                by_cases hj : i = j
                · subst hj; rw [updN_at, w2]; exact (at_ne (fun h => hij ⟨rfl, h⟩)).1
                · rw [updN_ne _ _ hj]
              rw [this]
              simp only [caught, r3, r1]
          · by_cases hij : i = j ∧ k = x
            · obtain ⟨rfl, rfl⟩ := hij
              rw [updN_at, w2, at_t]
              simp only [caught, updN_at, p2, at_t]
            · obtain ⟨r1, r2, r3⟩ := hother j x hij
              have : (updN (caught cur P tch G) i a2.s j).t x = (caught cur P tch G j).t x := by
                by_cases hj : i = j
                · subst hj; rw [updN_at, w2]; exact (at_ne (fun h => hij ⟨rfl, h⟩)).2
                · rw [updN_ne _ _ hj]
              rw [this]
              simp only [caught, r2]
        rw [e2] at m2
        exact m1.trans m2
    | col o' t' u hk' ho hs =>
      obtain ⟨a1, p1, p2, _⟩ := hs (cur i) o s1
      rw [← hcur, ha] at p1; cases p1
      rw [← ho] at p2
      obtain ⟨fr', hP1, hfr⟩ : ∃ fr', P' i k = some (o', true, fr', d) ∧ ∀ y, fr' y = true → fr y = true ∨ u y = true := by
        rcases hPk with ⟨o1, f1, q1, q2, q3, q4, _⟩ | ⟨q1, _⟩
        · rw [p2, at_v] at q1; cases q1; exact ⟨f1, q3, q4 u ho⟩
        · exact absurd hk' (q1 o' (by rw [p2, at_v]))
      refine ⟨fun j x o1 f1 d1 hx => ?_, fun j x y => if i = j ∧ k = x then tch j x y || u y else tch j x y, fun j x o1 f1 d1 hx y hy => ?_, fun G hG => ?_⟩
      · by_cases hij : i = j ∧ k = x
        · obtain ⟨rfl, rfl⟩ := hij; rw [hP1] at hx; cases hx
          exact ⟨hk'.symm.left, by rw [updN_at, p2, at_v]⟩
        · obtain ⟨r1, r2, r3⟩ := hother j x hij
          rw [r3] at hx; rw [r1]; exact h.hot j x o1 f1 d1 hx
      · by_cases hij : i = j ∧ k = x
        · obtain ⟨rfl, rfl⟩ := hij; rw [hP1] at hx; cases hx
          simp only [and_self, if_true, Bool.or_eq_true]
          rcases hfr y hy with h1 | h1
          · exact Or.inl (htc _ _ _ _ _ hp y h1)
          · exact Or.inr h1
        · rw [(hother j x hij).2.2] at hx
          simp only [if_neg hij]; exact htc j x o1 f1 d1 hx y hy
      · have hot' : isHot o = true ∧ isHot o' = true := ⟨isHot_iff.2 s1, isHot_iff.2 hk'.symm.left⟩
        have hfit : Fits P G := by
          intro j x o1 b' f' d' hx hh
          by_cases hij : i = j ∧ k = x
          · obtain ⟨rfl, rfl⟩ := hij
            rw [hp] at hx; cases hx
            exact hk'.trans (hG i k o' _ _ d hP1 hot'.2)
          · exact hG j x o1 b' f' d' (by rw [(hother j x hij).2.2]; exact hx) hh
        have e1 : planned Y P G = planned Y P' G := by
          funext j
          refine AS.ext' (fun x => ?_) (fun x => ?_)
          · by_cases hij : i = j ∧ k = x
            · obtain ⟨rfl, rfl⟩ := hij; simp [planned, hp, hP1, hot']
            · simp only [planned, (hother j x hij).2.2]
          · by_cases hij : i = j ∧ k = x
            · obtain ⟨rfl, rfl⟩ := hij; simp [planned, hp, hP1]
            · simp only [planned, (hother j x hij).2.2]
        have m1 := hm _ hfit
        rw [e1] at m1
        have hcell : caught cur P tch G i = (caught cur P tch G i).at k (some (mix (tch i k) o (G i k))) ((cur i).t k) := by
          have : (caught cur P tch G i).v k = some (mix (tch i k) o (G i k)) := by simp [caught, hp]
          rw [← this]; exact (at_self _ _).symm
        obtain ⟨a2, w1, w2, w3⟩ := hs (caught cur P tch G i) (mix (tch i k) o (G i k)) (mix_kind (hfit i k o _ _ d hp hot'.1))
        rw [← hcell] at w1
        have m2 := moves (caught cur P tch G) a2 w1 w3
        have e2 : updN (caught cur P tch G) i a2.s = caught (updN cur i a.s) P' (fun j x y => if i = j ∧ k = x then tch j x y || u y else tch j x y) G := by
          funext j
          refine AS.ext' (fun x => ?_) (fun x => ?_)
          · by_cases hij : i = j ∧ k = x
            · obtain ⟨rfl, rfl⟩ := hij
              rw [updN_at, w2, at_v, mix_mix hk' (hfit i k o _ _ d hp hot'.1) ho]
              simp [caught, hP1]
            · obtain ⟨r1, r2, r3⟩ := hother j x hij
              have : (updN (caught cur P tch G) i a2.s j).v x = (caught cur P tch G j).v x := by
                by_cases hj : i = j
                · subst hj; rw [updN_at, w2]; exact (at_ne (fun h => hij ⟨rfl, h⟩)).1
                · rw [updN_ne _ _ hj]
              rw [this]
              simp only [caught, r3, r1, if_neg hij]
          · by_cases hij : i = j ∧ k = x
            · obtain ⟨rfl, rfl⟩ := hij
              rw [updN_at, w2, at_t]
              simp only [caught, updN_at, p2, at_t]
            · obtain ⟨r1, r2, r3⟩ := hother j x hij
              have : (updN (caught cur P tch G) i a2.s j).t x = (caught cur P tch G j).t x := by
                by_cases hj : i = j
                · subst hj; rw [updN_at, w2]; exact (at_ne (fun h => hij ⟨rfl, h⟩)).2
                · rw [updN_ne _ _ hj]
              rw [this]
              simp only [caught, r2]
        rw [e2] at m2
        exact m1.trans m2
  · have hP1 : P' i k = P i k := by
      have := hP i k
      unfold Wait.after at this
      split at this
      · next o f d hp => exact absurd ⟨o, f, d, hp⟩ hhot
      · exact this
    have hPP : P' = P := by
      funext j x
      by_cases hij : i = j ∧ k = x
      · obtain ⟨rfl, rfl⟩ := hij; exact hP1
      · exact (hother j x hij).2.2
    subst hPP
    refine ⟨fun j x o1 f1 d1 hx => ?_, tch, htc, fun G hG => ?_⟩
    · by_cases hij : i = j ∧ k = x
      · obtain ⟨rfl, rfl⟩ := hij; exact absurd ⟨o1, f1, d1, hx⟩ hhot
      · rw [(hother j x hij).1]; exact h.hot j x o1 f1 d1 hx
    · have hcv : (caught cur P' tch G i).v k = (cur i).v k := by
        cases hp : P' i k with
        | none => simp [caught, hp]
        | some c =>
          obtain ⟨o, b, f, d⟩ := c
          cases b with
          | true => exact absurd ⟨o, f, d, hp⟩ hhot
          | false => simp [caught, hp]
      obtain ⟨a2, w1, w2, w3⟩ := (hloc.other ha (s' := caught cur P' tch G i) hcv rfl).2
      have m2 := moves (caught cur P' tch G) a2 w1 (Or.inr (by rw [w2]; exact hd))
      have e2 : updN (caught cur P' tch G) i a2.s = caught (updN cur i a.s) P' tch G := by
        funext j
        refine AS.ext' (fun x => ?_) (fun x => ?_)
        · by_cases hij : i = j ∧ k = x
          · obtain ⟨rfl, rfl⟩ := hij
            rw [updN_at, w3, at_v]
            cases hp : P' i k with
            | none => simp [caught, hp, updN_at]
            | some c =>
              obtain ⟨o, b, f, d⟩ := c
              cases b with
              | true => exact absurd ⟨o, f, d, hp⟩ hhot
              | false => simp [caught, hp, updN_at]
          · obtain ⟨r1, r2, r3⟩ := hother j x hij
            have : (updN (caught cur P' tch G) i a2.s j).v x = (caught cur P' tch G j).v x := by
              by_cases hj : i = j
              · subst hj; rw [updN_at, w3]; exact (at_ne (fun h => hij ⟨rfl, h⟩)).1
              · rw [updN_ne _ _ hj]
            rw [this]
            simp only [caught, r1]
        · by_cases hij : i = j ∧ k = x
          · obtain ⟨rfl, rfl⟩ := hij
            rw [updN_at, w3, at_t]
            simp only [caught, updN_at]
          · obtain ⟨r1, r2, r3⟩ := hother j x hij
            have : (updN (caught cur P' tch G) i a2.s j).t x = (caught cur P' tch G j).t x := by
              by_cases hj : i = j
              · subst hj; rw [updN_at, w3]; exact (at_ne (fun h => hij ⟨rfl, h⟩)).2
              · rw [updN_ne _ _ hj]
            rw [this]
            simp only [caught, r2]
      rw [e2] at m2
      exact (hm G hG).trans m2

/-! ### The goroutine's list -/

/-- The keys that wait. -/
def pend : List Todo → Wait
  | [], _, _ => none
  | ⟨.select _, _, _⟩ :: r, i, k => pend r i k
  | ⟨.key it, sh, st⟩ :: r, i, k =>
    if it.db = i ∧ it.key = k then some (it.obj.view, sh && isHot it.obj.view, st.getD (fun _ => false), it.deadline) else pend r i k

/-- No key waits twice. -/
def Distinct : List Todo → Prop
  | [] => True
  | ⟨.select _, _, _⟩ :: r => Distinct r
  | ⟨.key it, _, _⟩ :: r => pend r it.db it.key = none ∧ Distinct r

/-- The database that the written commands select, now `s` and in the end `s0`, is that of the keys. -/
def TodoSel (N : Nat) : Nat → List Todo → Nat → Prop
  | s, [], s0 => s = s0
  | _, ⟨.select j, _, _⟩ :: r, s0 => j < N ∧ TodoSel N j r s0
  | s, ⟨.key it, _, _⟩ :: r, s0 => it.db = s ∧ s < N ∧ TodoSel N s r s0

/-- Strings, hashes and sets. -/
def Simple : AObj → Prop
  | .str _ | .hash _ | .set _ => True
  | _ => False

structure ItemOk (hash : Bytes → Nat) (T : Int) (it : Aof.Item) : Prop where
  good : it.obj.Good hash
  kind : Simple it.obj.view
  time : ∀ d, it.deadline = some d → T ≤ fl d ∧ d < 2 ^ 63

def ItemsOk (hash : Bytes → Nat) (T : Int) (todo : List Todo) : Prop := ∀ it sh st, (⟨.key it, sh, st⟩ : Todo) ∈ todo → ItemOk hash T it

theorem peek_view {e : Env} (he : e.hash = hash) {dbs : List Db} (g : ∀ (i : Nat) (d : Db), dbs[i]? = some d → d.Good hash) (i : Nat) (k : Bytes) :
    (Node.peek e dbs i k).map Obj.view = (vw dbs i).v k ∧ ∀ o, Node.peek e dbs i k = some o → o.Good hash := by
  unfold Node.peek vw
  cases hd : dbs[i]? with
  | none => exact ⟨rfl, fun o h => by cases h⟩
  | some d =>
    have gd := g i d hd
    obtain ⟨x, h1, h2, h3, _⟩ := Dict.find_map gd.dict k
    have h1' : Dict.find e.hash d.dict k = some ((d.dict.abs k).map (fun v => (k, v)), x) := by rw [he]; exact h1
    simp only [Option.bind_eq_bind, Option.bind_some, h1', Option.elim, Option.map_map]
    refine ⟨?_, fun o ho => ?_⟩
    · simp only [Db.view]
      cases d.dict.abs k <;> rfl
    · cases ha : d.dict.abs k with
      | none => rw [ha] at ho; cases ho
      | some o' => rw [ha] at ho; cases ho; exact gd.objs k _ ha

theorem peekDeadline_view {e : Env} (he : e.hash = hash) {dbs : List Db} (g : ∀ (i : Nat) (d : Db), dbs[i]? = some d → d.Good hash) (i : Nat) (k : Bytes) :
    Node.peekDeadline e dbs i k = (vw dbs i).t k := by
  unfold Node.peekDeadline vw
  cases hd : dbs[i]? with
  | none => rfl
  | some d =>
    have gd := g i d hd
    obtain ⟨x, h1, h2, h3, _⟩ := Dict.find_map gd.expire k
    have h1' : Dict.find e.hash d.expire k = some ((d.expire.abs k).map (fun v => (k, v)), x) := by rw [he]; exact h1
    simp only [Option.bind_eq_bind, Option.bind_some, h1', Option.elim, Option.map_map]
    simp only [Db.view]
    cases d.expire.abs k <;> rfl

theorem sameKind_iff {a b : Obj} (ha : isHot a.view = true) : Node.sameKind a b = true ↔ SameK a.view b.view := by
  constructor
  · intro h
    cases a <;> cases b <;> first | (cases h; done) | (cases ha; done) | constructor
  · intro h
    cases a <;> cases b <;> first | rfl | cases h

theorem sameKind_str {a b : Obj} (hs : Simple a.view) (ha : isHot a.view = false) : Node.sameKind a b = false := by
  cases a <;> first | (cases ha; done) | (cases hs; done) | (cases b <;> rfl)

/-- The value of a field; a member of a set has the value `[]`. -/
def AObj.field : AObj → Bytes → Option Bytes
  | .hash f, y => f y
  | .set f, y => (f y).map (fun _ => [])
  | _, _ => none

theorem field_view {e : Env} (he : e.hash = hash) {o : Obj} (g : o.Good hash) (y : Bytes) : Node.field e o y = AObj.field o.view y := by
  cases o with
  | hash d =>
    obtain ⟨x, h1, _⟩ := Dict.find_map (V := Bytes) (d := d) g y
    simp only [Node.field, he, h1, Option.bind_some, Obj.view, AObj.field]
    cases d.abs y <;> rfl
  | set d =>
    obtain ⟨x, h1, _⟩ := Dict.find_map (V := Unit) (d := d) g y
    simp only [Node.field, he, h1, Option.bind_some, Obj.view, AObj.field]
    cases d.abs y <;> rfl
  | _ => rfl

theorem field_mix {u : Bytes → Bool} {o o' : AObj} (hk : SameK o o') (h : o' = mix u o' o) {y : Bytes} (hy : o.field y ≠ o'.field y) : u y = true := by
  cases hu : u y with
  | true => rfl
  | false =>
    cases hk with
    | hash a b =>
      simp only [mix, AObj.hash.injEq] at h
      have := congrFun h y
      simp only [hu] at this
      exact absurd this.symm hy
    | set a b =>
      simp only [mix, AObj.set.injEq] at h
      have := congrFun h y
      simp only [hu] at this
      refine absurd ?_ hy
      simp only [AObj.field]
      rw [this]; rfl

/-- `follow` on one key. -/
theorem follow_key {e : Env} (he : e.hash = hash) {before after : List Db} (g : ∀ (i : Nat) (d : Db), after[i]? = some d → d.Good hash)
    (gb : ∀ (i : Nat) (d : Db), before[i]? = some d → d.Good hash)
    (hlive : ∀ i k d, (vw before i).t k = some d → e.now ≤ d) {it : Aof.Item} (ok : ItemOk hash T it) (sh : Bool) (st : Option (Bytes → Bool)) :
    ∃ it' sh' st', Node.follow e before after ⟨.key it, sh, st⟩ = ⟨.key it', sh', st'⟩ ∧ it'.db = it.db ∧ it'.key = it.key ∧ it'.deadline = it.deadline ∧ ItemOk hash T it' ∧
      Wait.after (some (it.obj.view, sh && isHot it.obj.view, st.getD (fun _ => false), it.deadline)) ((vw after it.db).v it.key)
        (some (it'.obj.view, sh' && isHot it'.obj.view, st'.getD (fun _ => false), it'.deadline)) := by
  obtain ⟨p1, p2⟩ := peek_view he g it.db it.key
  have hrem : Node.removed e.now (Node.peekDeadline e before it.db it.key) (Node.peekDeadline e after it.db it.key) = false := by
    rw [peekDeadline_view he gb]
    unfold Node.removed
    split
    · next d h1 h2 => exact decide_eq_false (by have := hlive _ _ d h1; omega)
    · rfl
  cases sh with
  | false => exact ⟨it, false, st, rfl, rfl, rfl, rfl, ok, by simp [Wait.after]⟩
  | true =>
    simp only [Node.follow, hrem, Bool.true_and]
    cases hh : isHot it.obj.view with
    | false =>
      refine ⟨it, false, st, ?_, rfl, rfl, rfl, ok, by simp [Wait.after]⟩
      cases Node.peek e after it.db it.key with
      | none => rfl
      | some o => simp [sameKind_str ok.kind hh]
    | true =>
      cases hp : Node.peek e after it.db it.key with
      | none =>
        refine ⟨it, false, st, rfl, rfl, rfl, rfl, ok, ?_⟩
        rw [hp] at p1
        refine Or.inr ⟨fun o' h => ?_, by simp⟩
        rw [← p1] at h; cases h
      | some o =>
        rw [hp] at p1
        cases hk : Node.sameKind it.obj o with
        | true =>
          have hsk := (sameKind_iff hh).1 hk
          have hfield : ∀ y, (Node.field e it.obj y ≠ Node.field e o y) = (it.obj.view.field y ≠ o.view.field y) := fun y => by
            rw [field_view he ok.good, field_view he (p2 o hp)]
          have hgetD : (st.map (fun f y => f y || decide (Node.field e it.obj y ≠ Node.field e o y))).getD (fun _ => false) =
              if st.isSome then fun y => st.getD (fun _ => false) y || decide (it.obj.view.field y ≠ o.view.field y) else fun _ => false := by
            cases st with
            | none => rfl
            | some f => funext y; simp only [Option.map_some, Option.getD_some, hfield]; rfl
          refine ⟨{ it with obj := o }, true, st.map (fun f y => f y || decide (Node.field e it.obj y ≠ Node.field e o y)), by simp only [hk, Bool.not_false, Bool.and_self, if_true], rfl, rfl, rfl, ⟨p2 o hp, ?_, ok.time⟩,
            Or.inl ⟨o.view, if st.isSome then fun y => st.getD (fun _ => false) y || decide (it.obj.view.field y ≠ o.view.field y) else fun _ => false,
              p1.symm, hsk, ?_, ?_, ?_⟩⟩
          · show Simple o.view
            generalize it.obj.view = x at hsk
            generalize o.view = y at hsk
            cases hsk <;> trivial
          · simp only [isHot_iff.2 hsk.symm.left, Bool.and_self]
            rw [hgetD]
          · intro u hu y hy
            split at hy
            · simp only [Bool.or_eq_true, decide_eq_true_eq] at hy
              exact hy.imp_right (field_mix hsk hu)
            · cases hy
          · intro heq
            cases st with
            | none => rfl
            | some f => funext y; simp [heq]
        | false =>
          refine ⟨it, false, st, by simp [hk], rfl, rfl, rfl, ok, Or.inr ⟨fun o' h => ?_, by simp⟩⟩
          rw [← p1] at h; cases h
          intro hsk
          rw [(sameKind_iff hh).2 hsk] at hk; cases hk

/-- `follow` on all of them. -/
theorem follow_all {e : Env} (he : e.hash = hash) {before after : List Db} (g : ∀ (i : Nat) (d : Db), after[i]? = some d → d.Good hash)
    (gb : ∀ (i : Nat) (d : Db), before[i]? = some d → d.Good hash) (hlive : ∀ i k d, (vw before i).t k = some d → e.now ≤ d) :
    ∀ (todo : List Todo), ItemsOk hash T todo →
      (∀ j x, Wait.after (pend todo j x) ((vw after j).v x) (pend (todo.map (Node.follow e before after)) j x)) ∧
      ItemsOk hash T (todo.map (Node.follow e before after)) ∧
      (Distinct todo → Distinct (todo.map (Node.follow e before after))) ∧
      ∀ s s0, TodoSel N s todo s0 → TodoSel N s (todo.map (Node.follow e before after)) s0
  | [], _ => ⟨fun j x => rfl, fun it sh st h => (by cases h), fun h => h, fun s s0 h => h⟩
  | ⟨.select j, sh, st⟩ :: r, ok => by
    obtain ⟨h1, h2, h3, h4⟩ := follow_all he g gb hlive r (fun it sh st h => ok it sh st (by simp [h]))
    have hf : Node.follow e before after ⟨.select j, sh, st⟩ = ⟨.select j, sh, st⟩ := rfl
    rw [List.map_cons, hf]
    refine ⟨h1, fun it s s2 h => h2 it s s2 (by simpa using h), h3, fun s s0 h => ⟨h.1, h4 _ _ h.2⟩⟩
  | ⟨.key it, sh, st⟩ :: r, ok => by
    obtain ⟨h1, h2, h3, h4⟩ := follow_all he g gb hlive r (fun it sh st h => ok it sh st (by simp [h]))
    obtain ⟨it', sh', st', hf, q1, q2, q3, q4, q5⟩ := follow_key he g gb hlive (ok it sh st (by simp)) sh st
    rw [List.map_cons, hf]
    refine ⟨fun j x => ?_, fun it1 s s2 h => ?_, fun h => ?_, fun s s0 h => ?_⟩
    · simp only [pend, q1, q2]
      split
      · next hh => obtain ⟨rfl, rfl⟩ := hh; exact q5
      · exact h1 j x
    · rcases List.mem_cons.1 h with h | h
      · cases h; exact q4
      · exact h2 it1 s s2 h
    · refine ⟨?_, h3 h.2⟩
      have := h1 it'.db it'.key
      rw [q1, q2, h.1] at this
      rw [q1, q2]; exact this
    · exact ⟨by rw [q1]; exact h.1, h.2.1, h4 _ _ h.2.2⟩

theorem after_none {v : Option AObj} {c c' : Option Waiting} (h : Wait.after c v c') : c' = none ↔ c = none := by
  unfold Wait.after at h
  split at h
  · rcases h with ⟨o', f', _, _, rfl, _⟩ | ⟨_, rfl⟩ <;> simp
  · rw [h]

/-! ### The state of a rewrite -/

structure JobOk (hash : Bytes → Nat) (lower : Bytes → Bytes) (pf : Bytes → Option F64) (T : Int) (N : Nat) (cur : Nat → AS) (sel : Nat) (rbuf : Bytes)
    (j : Job) : Prop where
  items : ItemsOk hash T j.todo
  dist  : Distinct j.todo
  rest  : ∃ recs R Y selY sel0, j.tmp = log recs ∧ RecsOk lower recs ∧ rbuf = log R ∧ RecsOk lower R ∧ Moves hash lower pf T N recs noData 0 Y selY ∧
    (∀ i k, pend j.todo i k ≠ none → (Y i).v k = none ∧ (Y i).t k = none) ∧ TodoSel N selY j.todo sel0 ∧
    Afar hash lower pf T N cur sel (pend j.todo) R Y sel0

theorem JobOk.quiet {e : Env} (he : e.hash = hash) {before after : List Db} (g : ∀ (i : Nat) (d : Db), after[i]? = some d → d.Good hash)
    (gb : ∀ (i : Nat) (d : Db), before[i]? = some d → d.Good hash) (hlive : ∀ i k d, (vw before i).t k = some d → e.now ≤ d) {sel : Nat} {rbuf : Bytes} {j : Job}
    (h : JobOk hash lower pf T N (vw before) sel rbuf j) (hv : vw after = vw before) :
    JobOk hash lower pf T N (vw after) sel rbuf { j with todo := j.todo.map (Node.follow e before after) } := by
  obtain ⟨h1, h2, h3, h4⟩ := follow_all (N := N) he g gb hlive j.todo h.items
  obtain ⟨recs, R, Y, selY, sel0, a1, a2, a3, a4, a5, a6, a7, a8⟩ := h.rest
  have hsame : pend (j.todo.map (Node.follow e before after)) = pend j.todo := by
    funext i x
    have := h1 i x
    unfold Wait.after at this
    split at this
    · next o f d hp =>
      obtain ⟨s1, s2⟩ := a8.hot i x o f d hp
      rw [hv, s2] at this
      rcases this with ⟨o', f', q1, q2, q3, _, q5⟩ | ⟨q1, _⟩
      · cases q1; rw [q3, q5 rfl, hp]
      · exact absurd s1 (q1 o rfl)
    · exact this
  refine ⟨h2, h3 h.dist, recs, R, Y, selY, sel0, a1, a2, a3, a4, a5, ?_, h4 _ _ a7, ?_⟩
  · rw [hsame]; exact a6
  · rw [hsame, hv]; exact a8

theorem log_app (a b : List (List Bytes)) : log (a ++ b) = log a ++ log b := by simp [log]

theorem JobOk.logged {e : Env} (he : e.hash = hash) {before after : List Db} (g : ∀ (i : Nat) (d : Db), after[i]? = some d → d.Good hash)
    (gb : ∀ (i : Nat) (d : Db), before[i]? = some d → d.Good hash) (hlive : ∀ i k d, (vw before i).t k = some d → e.now ≤ d) {sel : Nat} {rbuf : Bytes} {j : Job}
    (h : JobOk hash lower pf T N (vw before) sel rbuf j) {i : Nat} {k : Bytes} {c : Cmd} {f} {args : List Bytes} {a : AOut} {rs : List (List Bytes)}
    (hk : args[1]? = some k) (hc : loggable c = true) (hf : aFn c = some f) (ha : f e args (vw before i) = some a) (hd : a.dirty ≠ 0)
    (moves : ∀ (S : Nat → AS) (a' : AOut), f e args (S i) = some a' → (repeats c = true ∨ a'.dirty ≠ 0) →
        Moves hash lower pf T N rs S sel (updN S i a'.s) i) (hrs : RecsOk lower rs)
    (hv : vw after = updN (vw before) i a.s) :
    JobOk hash lower pf T N (vw after) i (rbuf ++ log rs) { j with todo := j.todo.map (Node.follow e before after) } := by
  obtain ⟨h1, h2, h3, h4⟩ := follow_all (N := N) he g gb hlive j.todo h.items
  obtain ⟨recs, R, Y, selY, sel0, a1, a2, a3, a4, a5, a6, a7, a8⟩ := h.rest
  refine ⟨h2, h3 h.dist, recs, R ++ rs, Y, selY, sel0, a1, a2, by rw [log_app, a3], a4.append hrs, a5, fun i' k' hp => ?_, h4 _ _ a7, ?_⟩
  · exact a6 i' k' (fun h => hp ((after_none (h1 i' k')).2 h))
  · rw [hv]
    exact a8.logged hk hc hf ha hd (fun d hd => hlive i k d hd) moves (fun j' x => by rw [← hv]; exact h1 j' x)

theorem cats (recs : List (List Bytes)) : (recs.map Aof.cat).flatten = log recs := by
  unfold log
  congr 1
  exact List.map_congr_left (fun r _ => Aof.cat_spec r)

/-- Not an empty collection. -/
def Kept : AObj → Prop
  | .hash f => ∃ x, f x ≠ none
  | .set f => ∃ x, f x ≠ none
  | _ => True

theorem dumped_kept {o : AObj} {o' : Option AObj} (h : Dumped (some o) o') (hs : Simple o) (hk : Kept o) : o' = some o := by
  cases h with
  | str => rfl
  | list => exact hs.elim
  | noList => exact hs.elim
  | hash => rfl
  | set => rfl
  | noHash h => obtain ⟨x, hx⟩ := hk; exact absurd (h x) hx
  | noSet h => obtain ⟨x, hx⟩ := hk; exact absurd (h x) hx

theorem dump_recOk (hlow : LowerOk lower) {e : Env} {k : Bytes} {o : Obj} (hs : Simple o.view) {recs} (h : Aof.dumpObj e k o = some recs) (t : Option Int) :
    RecsOk lower (recs ++ Aof.dumpDeadline k t) := by
  have hset : ∀ l, RecOk lower (b!"set" :: l) := fun l => recOk_named hlow ⟨b!"set", .set, -3⟩ (by simp [commandTable]) (by simp) l
  have hhset : ∀ l, RecOk lower (b!"hset" :: l) := fun l => recOk_named hlow ⟨b!"hset", .hset, -4⟩ (by simp [commandTable]) (by simp) l
  have hsadd : ∀ l, RecOk lower (b!"sadd" :: l) := fun l => recOk_named hlow ⟨b!"sadd", .sadd, -3⟩ (by simp [commandTable]) (by simp) l
  have hat : ∀ l, RecOk lower (b!"expireat" :: l) := fun l => recOk_named hlow ⟨b!"expireat", .expireat, 3⟩ (by simp [commandTable]) (by simp) l
  refine RecsOk.append ?_ ?_
  · cases o with
    | zset => exact hs.elim
    | list => exact hs.elim
    | str s =>
      cases h
      intro r hr
      rw [List.mem_singleton] at hr; subst hr; exact hset _
    | hash d =>
      simp only [Aof.dumpObj, Option.bind_eq_bind, Option.bind_eq_some_iff] at h
      obtain ⟨_, _, ⟨_, l⟩, _, h⟩ := h
      cases h
      intro r hr
      simp only [Aof.pieces, List.mem_map] at hr
      obtain ⟨c, _, rfl⟩ := hr
      exact hhset _
    | set d =>
      simp only [Aof.dumpObj, Option.bind_eq_bind, Option.bind_eq_some_iff] at h
      obtain ⟨⟨l, _⟩, _, h⟩ := h
      cases h
      intro r hr
      simp only [Aof.pieces, List.mem_map] at hr
      obtain ⟨c, _, rfl⟩ := hr
      exact hsadd _
  · intro r hr
    cases t with
    | none => cases hr
    | some d => simp only [Aof.dumpDeadline, List.mem_singleton] at hr; subst hr; exact hat _

theorem sec_fl {d : Int} (h : 0 ≤ d) : sec d = fl d := by
  unfold sec fl
  rw [Int.tdiv_eq_ediv_of_nonneg h]

theorem sim_at {s s2 : AS} (h : Sim T s s2) (k : Bytes) {o : AObj} (ho : OSame o o) {t : Option Int} (ht : ∀ d, t = some d → T ≤ fl d) :
    Sim T (s.at k (some o) t) (s2.at k (some o) (t.map fl)) := by
  refine ⟨fun x => ?_, fun x => ?_, fun x d hd => ?_⟩
  · simp only [AS.at, upd]; split
    · exact ho
    · exact h.v x
  · simp only [AS.at, upd]; split
    · rfl
    · exact h.t x
  · simp only [AS.at, upd] at hd; split at hd
    · exact ht d hd
    · exact h.live x d hd

theorem osame_simple {o : AObj} (h : Simple o) : OSame o o := by
  cases o <;> first | exact h.elim | constructor

theorem dump_moves (hlow : LowerOk lower) (h0 : 0 ≤ T) {e : Env} {it : Aof.Item} (ok : ItemOk hash T it) (hk : Kept it.obj.view) {recs}
    (h : Aof.dumpChore e (.key it) = some recs) {Y : Nat → AS} (hi : it.db < N) (h1 : (Y it.db).v it.key = none) (h2 : (Y it.db).t it.key = none) :
    Moves hash lower pf T N recs Y it.db (updN Y it.db ((Y it.db).at it.key (some it.obj.view) it.deadline)) it.db ∧ RecsOk lower recs := by
  simp only [Aof.dumpChore, Option.bind_eq_bind, Option.bind_eq_some_iff] at h
  obtain ⟨rs, hd, h⟩ := h
  cases h
  refine ⟨?_, dump_recOk hlow ok.kind hd _⟩
  intro es hes srv s hc hs
  obtain ⟨d, e1, e2, e3⟩ := hc.get hi
  have v1 : d.view.v it.key = none := by
    have := e3.v it.key
    rw [h1] at this
    cases h : d.view.v it.key with
    | none => rfl
    | some o => rw [h] at this; exact this.elim
  have v2 : d.view.t it.key = none := by rw [e3.t, h2]; rfl
  obtain ⟨rs', o', a1, a0, a2, a3⟩ := dumpObj_does hlow e ok.good (by
    have := ok.kind
    cases h : it.obj.view <;> rw [h] at this <;> first | exact this.elim | trivial) v1 v2
  rw [hd] at a1; cases a1
  have := dumped_kept a2 ok.kind hk
  subst this
  have a4 := dumpDeadline_does (hash := hash) hlow (k := it.key) (v := d.view) (o := some it.obj.view) (t := it.deadline)
    (fun x hx => by have := ok.time x hx; have := fl_le x; omega)
  obtain ⟨srv', d', b1, b2, b3, b4⟩ := (a3.append a4) es (fun i => ⟨(hes i).hash, (hes i).lower⟩) srv s d (by rw [hs]; exact e1) e2 rfl
  refine ⟨srv', s, b1, hs, ?_⟩
  rw [b2, hs]
  refine hc.set it.db b3 ?_
  rw [b4]
  have hsec : it.deadline.map sec = it.deadline.map fl := by
    cases hdl : it.deadline with
    | none => rfl
    | some x => have := ok.time x hdl; have := fl_le x; simp only [Option.map_some]; rw [sec_fl (by omega)]
  rw [hsec]
  exact sim_at e3 _ (osame_simple ok.kind) (fun x hx => (ok.time x hx).1)

/-! ### What a loop over a hash or a set has collected -/

theorem hsetLoop_last : ∀ (l : List (Bytes × Bytes)) (h : Fn Bytes) (n : Nat) (a b : Bytes), (∀ b', (a, b') ∈ l → b' = b) → (a, b) ∈ l →
    (A.hsetLoop (l.flatMap (fun x => [x.1, x.2])) h n).1 a = some b
  | [], h, n, a, b, _, hm => by simp at hm
  | (x, y) :: l, h, n, a, b, hall, hm => by
    simp only [List.flatMap_cons, List.cons_append, List.nil_append, A.hsetLoop]
    by_cases hl : ∃ b', (a, b') ∈ l
    · obtain ⟨b', hb'⟩ := hl
      have := hall b' (by simp [hb'])
      subst this
      exact hsetLoop_last l _ _ a b' (fun b2 h2 => hall b2 (by simp [h2])) hb'
    · rcases List.mem_cons.mp hm with h1 | h1
      · obtain ⟨rfl, rfl⟩ := Prod.mk.inj h1
        rw [hsetLoop_other l _ _ a (fun hm => by
          obtain ⟨⟨a', b'⟩, h2, rfl⟩ := List.mem_map.1 hm
          exact hl ⟨b', h2⟩)]
        simp [upd]
      · exact absurd ⟨b, h1⟩ hl

/-- The object that a list of collected items stands for. -/
def gathered (items : List (Bytes × Bytes)) : AObj → AObj
  | .hash _ => .hash (A.hsetLoop (items.flatMap (fun x => [x.1, x.2])) nil 0).1
  | .set _ => .set (A.saddLoop (items.map Prod.fst) nil 0).1
  | o => o

theorem gathered_kind {items} {o : AObj} (h : isHot o = true) : SameK o (gathered items o) := by
  cases o <;> first | (cases h; done) | constructor

theorem loose_mem {f : Bytes → Bool} {l items : List (Bytes × Bytes)} (h : Node.loose f l items = true) {y v : Bytes} (hy : f y = false) :
    (y, v) ∈ items ↔ (y, v) ∈ l := by
  have hp := List.isPerm_iff.1 h
  have := hp.mem_iff (a := (y, v))
  simpa [List.mem_filter, hy] using this

/-- Of the fields that have not changed the loop has collected what is there. -/
theorem gathered_mix {o : Obj} (g : o.Good hash) {l items : List (Bytes × Bytes)} (hl : Aof.parts o = some l) {f : Bytes → Bool}
    (h : Node.loose f l items = true) : mix f o.view (gathered items o.view) = o.view := by
  cases o with
  | hash d =>
    have gd : Dict.Good hash d := g
    have hc := Dict.collect_spec d gd.inv (by rw [gd.idle]) (fun _ => gd.idle)
    simp only [Aof.parts, hc, Option.map_some, Option.some.injEq] at hl
    subst hl
    simp only [Obj.view, gathered, mix, AObj.hash.injEq]
    funext y
    cases hy : f y with
    | true => rfl
    | false =>
      simp only [Bool.false_eq_true, if_false]
      cases hv : d.abs y with
      | some v =>
        have hm := (Dict.abs_eq_some gd.inv y v).1 hv
        refine hsetLoop_last items nil 0 y v (fun b' hb' => ?_) ((loose_mem h hy).2 hm)
        have := (Dict.abs_eq_some gd.inv y b').2 ((loose_mem h hy).1 hb')
        rw [hv] at this; cases this; rfl
      | none =>
        rw [hsetLoop_other items nil 0 y (fun hm => ?_)]
        · rfl
        · obtain ⟨⟨a', b'⟩, h2, rfl⟩ := List.mem_map.1 hm
          have := (Dict.abs_eq_some gd.inv a' b').2 ((loose_mem h hy).1 h2)
          rw [hv] at this; cases this
  | set d =>
    have gd : Dict.Good hash d := g
    have hc := MSet.range_spec d gd.inv (by rw [gd.idle]) (fun _ => gd.idle)
    simp only [Aof.parts, hc, Option.map_some, Option.some.injEq] at hl
    subst hl
    simp only [Obj.view, gathered, mix, AObj.set.injEq]
    have hmem : ∀ y, f y = false → (y ∈ items.map Prod.fst ↔ y ∈ d.toList.map Prod.fst) := by
      intro y hy
      constructor
      · intro hm
        obtain ⟨⟨a', b'⟩, h2, rfl⟩ := List.mem_map.1 hm
        have := (loose_mem h hy).1 h2
        simp only [MSet.mems, List.mem_map] at this
        obtain ⟨x, ⟨p, hp, rfl⟩, h3⟩ := this
        cases h3
        exact List.mem_map_of_mem hp
      · intro hm
        refine List.mem_map.2 ⟨(y, []), (loose_mem h hy).2 ?_, rfl⟩
        exact List.mem_map.2 ⟨y, hm, rfl⟩
    funext y
    cases hy : f y with
    | true => rfl
    | false =>
      simp only [Bool.false_eq_true, if_false]
      rw [saddLoop_at]
      have := (enum_toList gd).2 y
      rw [if_congr (hmem y hy) rfl rfl]
      cases h : d.abs y with
      | some v => rw [if_pos (this.2 (by simp [h]))]
      | none => rw [if_neg (fun hm => by have := this.1 hm; simp [h] at this)]; rfl
  | _ => rfl

/-- The commands for what was collected. -/
theorem dumpItems_does (hlow : LowerOk lower) {o : Obj} {k : Bytes} {v : AS} (h1 : v.v k = none) (h2 : v.t k = none) {items : List (Bytes × Bytes)} (hne : items ≠ [])
    {recs} (h : Aof.dumpItems k items o = some recs) :
    Does hash lower recs v (v.at k (some (gathered items o.view)) none) ∧ RecsOk lower recs ∧ isHot o.view = true := by
  have hhset : ∀ l, RecOk lower (b!"hset" :: l) := fun l => recOk_named hlow ⟨b!"hset", .hset, -4⟩ (by simp [commandTable]) (by simp) l
  have hsadd : ∀ l, RecOk lower (b!"sadd" :: l) := fun l => recOk_named hlow ⟨b!"sadd", .sadd, -3⟩ (by simp [commandTable]) (by simp) l
  cases o with
  | hash d =>
    cases h
    refine ⟨?_, ?_, rfl⟩
    · have hlen : ∀ l : List (Bytes × Bytes), (l.flatMap (fun x => [x.1, x.2])).length % 2 = 0 := fun l => by
        induction l with
        | nil => rfl
        | cons a l ih => simp only [List.flatMap_cons, List.length_append, List.length_cons, List.length_nil]; omega
      obtain ⟨o', ⟨_, rfl⟩, k4⟩ := does_pieces (name := b!"hset") (P := fun c => c.length % 2 = 0)
        (fun v l c hv hc => does_hset (hash := hash) hlow (key := k) v l c hv hc)
        (Aof.chunks (Aof.itemsPerCommand * 2) (items.flatMap (fun x => [x.1, x.2])).length (items.flatMap (fun x => [x.1, x.2]))) v []
        (chunks_nil (by decide) (Nat.le_refl _) (by cases hl : items with | nil => exact absurd hl hne | cons a l => simp))
        (chunks_even (by decide) _ _ (hlen _)) (Or.inl ⟨h1, rfl⟩)
      rw [List.nil_append, chunks_flatten (by decide) _ _ (Nat.le_refl _)] at k4
      rw [← put_at h2]
      exact k4
    · intro r hr
      simp only [Aof.pieces, List.mem_map] at hr
      obtain ⟨c, _, rfl⟩ := hr
      exact hhset _
  | set d =>
    cases h
    refine ⟨?_, ?_, rfl⟩
    · obtain ⟨o', rfl, k4⟩ := does_pieces (name := b!"sadd") (P := fun _ => True)
        (fun v l c hv hc => does_sadd (hash := hash) hlow (key := k) v l c hv)
        (Aof.chunks Aof.itemsPerCommand (items.map Prod.fst).length (items.map Prod.fst)) v []
        (chunks_nil (by decide) (Nat.le_refl _) (by simpa using hne)) (fun _ _ => trivial) (Or.inl ⟨h1, rfl⟩)
      rw [List.nil_append, chunks_flatten (by decide) _ _ (Nat.le_refl _)] at k4
      rw [← put_at h2]
      exact k4
    · intro r hr
      simp only [Aof.pieces, List.mem_map] at hr
      obtain ⟨c, _, rfl⟩ := hr
      exact hsadd _
  | _ => cases h

/-- What is written for a key, and what it will be after a restart. -/
def wrote (p : Node.Pace) (o : AObj) : AObj :=
  match p with
  | .collect items => gathered items o
  | _ => o

/-- The goroutine writes no empty collection. -/
def KeptBy : Node.Pace → Aof.Chore → Prop
  | .whole, .key it => Kept it.obj.view
  | .collect items, .key _ => items ≠ []
  | _, _ => True

theorem writes_moves (hlow : LowerOk lower) (h0 : 0 ≤ T) {e : Env} {it : Aof.Item} {sh : Bool} {st : Option (Bytes → Bool)} (ok : ItemOk hash T it) {p : Node.Pace}
    (hk : KeptBy p (.key it)) {recs} (h : Node.Writes e ⟨.key it, sh, st⟩ recs p) {Y : Nat → AS} (hi : it.db < N) (h1 : (Y it.db).v it.key = none)
    (h2 : (Y it.db).t it.key = none) :
    Moves hash lower pf T N recs Y it.db (updN Y it.db ((Y it.db).at it.key (some (wrote p it.obj.view)) it.deadline)) it.db ∧ RecsOk lower recs ∧
      (isHot it.obj.view = false → wrote p it.obj.view = it.obj.view) ∧ (isHot it.obj.view = true → SameK it.obj.view (wrote p it.obj.view)) ∧
      mix (st.getD (fun _ => false)) it.obj.view (wrote p it.obj.view) = it.obj.view := by
  cases h with
  | whole hs h =>
    obtain ⟨m1, m2⟩ := dump_moves (pf := pf) (N := N) hlow h0 ok hk h hi h1 h2
    exact ⟨m1, m2, fun _ => rfl, fun hh => isHot_iff.1 hh, mix_self _ _⟩
  | collect items h =>
    cases st with
    | none => cases h
    | some f =>
    simp only [Node.collect, Option.bind_eq_bind, Option.bind_eq_some_iff] at h
    obtain ⟨l, hl, rs, hd, h⟩ := h
    split at h
    swap
    · cases h
    next hloose =>
    cases h
    have hkind : isHot it.obj.view = true := by
      cases ho : it.obj <;> rw [ho] at hl <;> first | rfl | cases hl
    have hat : ∀ l, RecOk lower (b!"expireat" :: l) := fun l => recOk_named hlow ⟨b!"expireat", .expireat, 3⟩ (by simp [commandTable]) (by simp) l
    refine ⟨?_, ?_, fun hh => (by rw [hkind] at hh; cases hh), fun _ => gathered_kind hkind, gathered_mix ok.good hl hloose⟩
    · intro es hes srv s hc hs
      obtain ⟨d, e1, e2, e3⟩ := hc.get hi
      have v1 : d.view.v it.key = none := by
        have := e3.v it.key
        rw [h1] at this
        cases h : d.view.v it.key with
        | none => rfl
        | some o => rw [h] at this; exact this.elim
      have v2 : d.view.t it.key = none := by rw [e3.t, h2]; rfl
      obtain ⟨a3, _, _⟩ := dumpItems_does (hash := hash) hlow v1 v2 hk hd
      have a4 := dumpDeadline_does (hash := hash) hlow (k := it.key) (v := d.view) (o := some (gathered items it.obj.view)) (t := it.deadline)
        (fun x hx => by have := ok.time x hx; have := fl_le x; omega)
      obtain ⟨srv', d', b1, b2, b3, b4⟩ := (a3.append a4) es (fun i => ⟨(hes i).hash, (hes i).lower⟩) srv s d (by rw [hs]; exact e1) e2 rfl
      refine ⟨srv', s, b1, hs, ?_⟩
      rw [b2, hs]
      refine hc.set it.db b3 ?_
      rw [b4]
      have hsec : it.deadline.map sec = it.deadline.map fl := by
        cases hdl : it.deadline with
        | none => rfl
        | some x => have := ok.time x hdl; have := fl_le x; simp only [Option.map_some]; rw [sec_fl (by omega)]
      rw [hsec]
      refine sim_at e3 _ (osame_simple ?_) (fun x hx => (ok.time x hx).1)
      show Simple (gathered items it.obj.view)
      cases ho : it.obj <;> rw [ho] at hl <;> first | trivial | cases hl
    · refine RecsOk.append (dumpItems_does (hash := hash) (v := AS.empty) hlow rfl rfl hk hd).2.1 ?_
      intro r hr
      cases hdl : it.deadline with
      | none => rw [hdl] at hr; cases hr
      | some d => rw [hdl] at hr; simp only [Aof.dumpDeadline, List.mem_singleton] at hr; subst hr; exact hat _

/-- The goroutine does its next chore. -/
theorem JobOk.work (hlow : LowerOk lower) (h0 : 0 ≤ T) (hN : N < 2 ^ 63) {cur : Nat → AS} {sel : Nat} {rbuf : Bytes} {j : Job}
    (h : JobOk hash lower pf T N cur sel rbuf j) {t : Todo} {rest : List Todo} (ht : j.todo = t :: rest) {e : Env} {recs} {p : Node.Pace}
    (hd : Node.Writes e t recs p) (hk : KeptBy p t.chore) :
    JobOk hash lower pf T N cur sel rbuf { todo := rest, tmp := j.tmp ++ (recs.map Aof.cat).flatten } := by
  obtain ⟨rs, R, Y, selY, sel0, a1, a2, a3, a4, a5, a6, a7, a8⟩ := h.rest
  have hit := h.items
  have hdist := h.dist
  rw [ht] at hit hdist a6 a7 a8
  obtain ⟨c, sh, st⟩ := t
  cases c with
  | select i =>
    cases hd with
    | collect items hd => cases hd
    | whole hs hd =>
    cases hd
    refine ⟨fun it sh st hm => hit it sh st (by simp [hm]), hdist, rs ++ [selectRec i], R, Y, i, sel0, ?_, ?_, a3, a4, ?_, a6, a7.2, a8⟩
    · rw [log_app, cats, a1]; rfl
    · exact a2.append (fun r hr => by rw [List.mem_singleton] at hr; subst hr; exact recOk_select hlow _)
    · exact a5.trans (Moves.select hlow hN a7.1)
  | key it =>
    obtain ⟨b1, b2, b3⟩ := a7
    have hp : pend (⟨.key it, sh, st⟩ :: rest) it.db it.key = some (it.obj.view, sh && isHot it.obj.view, st.getD (fun _ => false), it.deadline) := by simp [pend]
    obtain ⟨f1, f2⟩ := a6 it.db it.key (by rw [hp]; simp)
    obtain ⟨m1, m2, m3, m4, m5⟩ := writes_moves (pf := pf) (T := T) (N := N) hlow h0 (hit it sh st (by simp)) hk hd (by omega) f1 f2
    have hpend : Wait.put (pend (⟨.key it, sh, st⟩ :: rest)) it.db it.key none = pend rest := by
      funext i x
      by_cases hix : it.db = i ∧ it.key = x
      · obtain ⟨rfl, rfl⟩ := hix; rw [Wait.put_at]; exact hdist.1.symm
      · rw [Wait.put_ne _ _ hix]; simp [pend, hix]
    have a9 := a8.write hp m3 m4 (fun _ => m5)
    rw [hpend] at a9
    refine ⟨fun it' sh st hm => hit it' sh st (by simp [hm]), hdist.2, rs ++ recs, R, _, selY, sel0, by rw [log_app, cats, a1], a2.append m2, a3, a4, ?_,
      fun i x hx => ?_, b3, a9⟩
    · rw [b1] at m1; rw [b1]; exact a5.trans m1
    · have hix : ¬(it.db = i ∧ it.key = x) := by rintro ⟨rfl, rfl⟩; exact hx hdist.1
      have := a6 i x (by simp only [pend, if_neg hix]; exact hx)
      by_cases hi : it.db = i
      · subst hi; rw [updN_at]
        rw [(at_ne (fun h => hix ⟨rfl, h⟩)).1, (at_ne (fun h => hix ⟨rfl, h⟩)).2]; exact this
      · rw [updN_ne _ _ hi]; exact this

/-- A loop over a hash or a set begins. -/
theorem JobOk.enter {cur : Nat → AS} {sel : Nat} {rbuf : Bytes} {j : Job} (h : JobOk hash lower pf T N cur sel rbuf j) {t t' : Todo} {rest : List Todo}
    (ht : j.todo = t :: rest) (he : Node.enter t = some t') : JobOk hash lower pf T N cur sel rbuf { todo := t' :: rest, tmp := j.tmp } := by
  obtain ⟨c, sh, st⟩ := t
  cases c with
  | select i => cases he
  | key it =>
    cases st with
    | some f => cases he
    | none =>
      simp only [Node.enter] at he
      split at he
      · cases he
        have hpend : pend (⟨.key it, sh, some (fun _ => false)⟩ :: rest) = pend j.todo := by rw [ht]; rfl
        obtain ⟨rs, R, Y, selY, sel0, a1, a2, a3, a4, a5, a6, a7, a8⟩ := h.rest
        refine ⟨fun it' sh' st' hm => ?_, ?_, rs, R, Y, selY, sel0, a1, a2, a3, a4, a5, by rw [hpend]; exact a6, ?_, by rw [hpend]; exact a8⟩
        · rcases List.mem_cons.1 hm with hm | hm
          · cases hm; exact h.items it sh none (by rw [ht]; simp)
          · exact h.items it' sh' st' (by rw [ht]; simp [hm])
        · have := h.dist; rw [ht] at this; exact this
        · rw [ht] at a7; exact a7
      · cases he

/-- The new file is complete. -/
theorem JobOk.finish {cur : Nat → AS} {sel : Nat} {rbuf tmp : Bytes} (h : JobOk hash lower pf T N cur sel rbuf ⟨[], tmp⟩) :
    ∃ recs, tmp ++ rbuf = log recs ∧ RecsOk lower recs ∧ Moves hash lower pf T N recs noData 0 cur sel := by
  obtain ⟨rs, R, Y, selY, sel0, a1, a2, a3, a4, a5, a6, a7, a8⟩ := h.rest
  have a7 : selY = sel0 := a7
  subst a7
  exact ⟨rs ++ R, by rw [log_app, a3]; exact congrArg (· ++ log R) a1, a2.append a4, a5.trans (a8.finish (fun _ _ => rfl))⟩

/-! ### The start of a rewrite -/

theorem pend_append : ∀ (a b : List Todo) (i : Nat) (k : Bytes), pend (a ++ b) i k = (pend a i k).or (pend b i k)
  | [], b, i, k => rfl
  | ⟨.select _, _, _⟩ :: a, b, i, k => by simp only [List.cons_append, pend]; exact pend_append a b i k
  | ⟨.key it, sh, st⟩ :: a, b, i, k => by
    simp only [List.cons_append, pend]
    split
    · rfl
    · exact pend_append a b i k

theorem distinct_append : ∀ (a b : List Todo), Distinct a → Distinct b → (∀ i k, pend a i k ≠ none → pend b i k = none) → Distinct (a ++ b)
  | [], b, _, hb, _ => hb
  | ⟨.select _, _, _⟩ :: a, b, ha, hb, h => distinct_append a b ha hb h
  | ⟨.key it, sh, st⟩ :: a, b, ha, hb, h => by
    refine ⟨?_, distinct_append a b ha.2 hb (fun i k hp => h i k ?_)⟩
    · show pend (a ++ b) it.db it.key = none
      rw [pend_append, ha.1, Option.none_or]
      exact h it.db it.key (by simp [pend])
    · simp only [pend]; split
      · simp
      · exact hp

theorem todoSel_append : ∀ (a b : List Todo) (s s1 s2 : Nat), TodoSel N s a s1 → TodoSel N s1 b s2 → TodoSel N s (a ++ b) s2
  | [], b, s, s1, s2, ha, hb => by cases (show s = s1 from ha); exact hb
  | ⟨.select _, _, _⟩ :: a, b, s, s1, s2, ha, hb => ⟨ha.1, todoSel_append a b _ s1 s2 ha.2 hb⟩
  | ⟨.key it, sh, st⟩ :: a, b, s, s1, s2, ha, hb => ⟨ha.1, ha.2.1, todoSel_append a b _ s1 s2 ha.2.2 hb⟩

def todos (l : List Aof.Chore) : List Todo := l.map (fun c => ⟨c, true, none⟩)

theorem keys_none {i : Nat} {t : Fn Int} : ∀ (l : List (Bytes × Obj)) (j : Nat) (x : Bytes), ¬(i = j ∧ x ∈ l.map Prod.fst) → pend (todos (keyChores i t l)) j x = none
  | [], j, x, _ => rfl
  | (k, o) :: l, j, x, h => by
    show (if i = j ∧ k = x then _ else pend (todos (keyChores i t l)) j x) = none
    rw [if_neg (by rintro ⟨rfl, rfl⟩; exact h ⟨rfl, by simp⟩)]
    exact keys_none l j x (by rintro ⟨rfl, hm⟩; exact h ⟨rfl, by simp [hm]⟩)

theorem keys_some {i : Nat} {t : Fn Int} : ∀ (l : List (Bytes × Obj)) (x : Bytes) (o : Obj), (l.map Prod.fst).Nodup → (x, o) ∈ l →
    pend (todos (keyChores i t l)) i x = some (o.view, isHot o.view, fun _ => false, t x)
  | [], x, o, _, h => by cases h
  | (k, o') :: l, x, o, hn, h => by
    simp only [List.map_cons, List.nodup_cons] at hn
    show (if i = i ∧ k = x then _ else pend (todos (keyChores i t l)) i x) = _
    rcases List.mem_cons.1 h with h | h
    · cases h; rw [if_pos ⟨rfl, rfl⟩]; simp
    · have : k ≠ x := by rintro rfl; exact hn.1 (List.mem_map.2 ⟨_, h, rfl⟩)
      rw [if_neg (fun h => this h.2)]
      exact keys_some l x o hn.2 h

theorem keys_distinct {i : Nat} {t : Fn Int} : ∀ (l : List (Bytes × Obj)), (l.map Prod.fst).Nodup → Distinct (todos (keyChores i t l))
  | [], _ => trivial
  | (k, o) :: l, hn => by
    simp only [List.map_cons, List.nodup_cons] at hn
    exact ⟨keys_none l i k (fun h => hn.1 h.2), keys_distinct l hn.2⟩

theorem keys_sel {i : Nat} (hi : i < N) {t : Fn Int} : ∀ (l : List (Bytes × Obj)), TodoSel N i (todos (keyChores i t l)) i
  | [] => rfl
  | (k, o) :: l => ⟨rfl, hi, keys_sel hi l⟩

/-- The database selected at the end of the dump. -/
def lastSel : Nat → List Db → Nat → Nat
  | _, [], s => s
  | i, c :: cs, s => lastSel (i + 1) cs (if c.dict.toList = [] then s else i)

theorem chores_pend (e : Env) (he : e.hash = hash) : ∀ (cs : List Db) (i : Nat), (∀ c ∈ cs, c.Good hash) → ∃ ch, Aof.chores e i cs = some ch ∧
    (∀ j x, pend (todos ch) j x = if i ≤ j then (cs[j - i]?).bind (fun c => (c.dict.abs x).map (fun o => (o.view, isHot o.view, fun _ => false, c.expire.abs x))) else none) ∧
    Distinct (todos ch) ∧
    (∀ it sh st, (⟨.key it, sh, st⟩ : Todo) ∈ todos ch → ∃ c ∈ cs, c.dict.abs it.key = some it.obj ∧ it.deadline = c.expire.abs it.key) ∧
    (i + cs.length ≤ N → ∀ s, TodoSel N s (todos ch) (lastSel i cs s))
  | [], i, _ => ⟨[], rfl, fun j x => by simp [todos, pend], trivial, fun it sh st h => (by cases h), fun _ s => rfl⟩
  | c :: cs, i, hg => by
    obtain ⟨ch, h1, h2, h3, h4, h5⟩ := chores_pend e he cs (i + 1) (fun x hx => hg x (by simp [hx]))
    have hc := hg c (by simp)
    have gd := hc.dict
    have hsz := size_ref gd
    by_cases hne : c.dict.toList = []
    · refine ⟨ch, by simp [Aof.chores, hsz, h1, hne], fun j x => ?_, h3, fun it sh st h => ?_, fun hl s => ?_⟩
      · rw [h2]
        by_cases hj : i + 1 ≤ j
        · rw [if_pos hj, if_pos (by omega), show j - i = (j - (i + 1)) + 1 by omega, List.getElem?_cons_succ]
        · rw [if_neg hj]
          split
          · have hn : c.dict.abs x = none := (Dict.abs_eq_none x).2 (by simp [hne])
            rw [show j - i = 0 by omega, List.getElem?_cons_zero, Option.bind_some, hn]; rfl
          · rfl
      · obtain ⟨c', m, q⟩ := h4 it sh st h; exact ⟨c', by simp [m], q⟩
      · simp only [lastSel, hne, if_true]
        exact h5 (by simp only [List.length_cons] at hl; omega) s
    · have hcol := Dict.collect_spec c.dict gd.inv (by rw [gd.idle]) (fun _ => gd.idle)
      obtain ⟨its, i1, i2⟩ := items_spec e he i c.dict.toList c.expire hc.expire
      have hfr : todos (.select i :: keyChores i c.expire.abs c.dict.toList ++ ch) = ⟨.select i, true, none⟩ :: (todos (keyChores i c.expire.abs c.dict.toList) ++ todos ch) := by
        simp [todos]
      refine ⟨.select i :: keyChores i c.expire.abs c.dict.toList ++ ch, ?_, fun j x => ?_, ?_, fun it sh st h => ?_, fun hl s => ?_⟩
      · simp only [Aof.chores, hsz, h1, hcol, i1, Option.bind_eq_bind, Option.bind_some, i2]
        rw [if_neg (by simp [hne])]
      · rw [hfr]
        simp only [pend, pend_append]
        rw [h2]
        by_cases hij : i = j
        · subst hij
          rw [if_neg (by omega), if_pos (by omega), Option.or_none, Nat.sub_self, List.getElem?_cons_zero, Option.bind_some]
          cases ha : c.dict.abs x with
          | none =>
            exact keys_none _ _ _ (fun h => (Dict.abs_eq_none x).1 ha h.2)
          | some o => exact keys_some _ x o gd.inv.nodup ((Dict.abs_eq_some gd.inv x o).1 ha)
        · rw [keys_none _ _ _ (fun h => hij h.1), Option.none_or]
          by_cases hj : i + 1 ≤ j
          · rw [if_pos hj, if_pos (by omega), show j - i = (j - (i + 1)) + 1 by omega, List.getElem?_cons_succ]
          · rw [if_neg hj, if_neg (by omega)]
      · rw [hfr]
        refine distinct_append _ _ (keys_distinct _ gd.inv.nodup) h3 (fun j x hp => ?_)
        rw [h2]
        rw [if_neg]
        intro hj
        exact hp (keys_none _ _ _ (fun h => by omega))
      · rw [hfr] at h
        simp only [List.mem_cons, List.mem_append] at h
        rcases h with h | h | h
        · cases h
        · simp only [todos, keyChores, List.map_map, List.mem_map, Function.comp] at h
          obtain ⟨p, hp, h⟩ := h
          cases h
          exact ⟨c, by simp, (Dict.abs_eq_some gd.inv p.1 p.2).2 hp, rfl⟩
        · obtain ⟨c', m, q⟩ := h4 it sh st h; exact ⟨c', by simp [m], q⟩
      · rw [hfr]
        simp only [lastSel, if_neg hne]
        simp only [List.length_cons] at hl
        exact ⟨by omega, todoSel_append _ _ _ _ _ (keys_sel (by omega) _) (h5 (by omega) i)⟩

theorem lastSel_eq {sel : Nat} : ∀ (cs : List Db) (i s : Nat), (∀ (j : Nat) (c : Db), cs[j]? = some c → c.dict.toList ≠ [] → i + j ≤ sel) →
    (s = sel ∧ sel ≤ i) ∨ (i ≤ sel ∧ ∃ c, cs[sel - i]? = some c ∧ c.dict.toList ≠ []) → lastSel i cs s = sel
  | [], i, s, _, h2 => by
    rcases h2 with ⟨h, _⟩ | ⟨_, c, h, _⟩
    · exact h
    · simp at h
  | c :: cs, i, s, h1, h2 => by
    unfold lastSel
    refine lastSel_eq cs (i + 1) _ (fun j x hx hne => by have := h1 (j + 1) x hx hne; omega) ?_
    by_cases hc : c.dict.toList = []
    · rw [if_pos hc]
      rcases h2 with ⟨h, h'⟩ | ⟨h, x, hx, hne⟩
      · exact Or.inl ⟨h, by omega⟩
      · by_cases hs : sel = i
        · subst hs; rw [Nat.sub_self, List.getElem?_cons_zero] at hx; cases hx; exact absurd hc hne
        · exact Or.inr ⟨by omega, x, by rw [show sel - i = (sel - (i + 1)) + 1 by omega, List.getElem?_cons_succ] at hx; exact hx, hne⟩
    · rw [if_neg hc]
      have hle := h1 0 c rfl hc
      by_cases hs : sel = i
      · exact Or.inl ⟨hs.symm, by omega⟩
      · rcases h2 with ⟨h, h'⟩ | ⟨h, x, hx, hne⟩
        · omega
        · exact Or.inr ⟨by omega, x, by rw [show sel - i = (sel - (i + 1)) + 1 by omega, List.getElem?_cons_succ] at hx; exact hx, hne⟩

/-- What a rewrite needs when it starts. -/
structure StartOk (S : Nat → AS) (sel : Nat) : Prop where
  simple : ∀ i k o, (S i).v k = some o → Simple o
  orphan : ∀ i k, (S i).v k = none → (S i).t k = none
  last   : ∀ i k, (S i).v k ≠ none → i ≤ sel
  some   : sel = 0 ∨ ∃ k, (S sel).v k ≠ none

theorem job_start {e : Env} (he : e.hash = hash) {dbs cs : List Db} (g : ∀ (i : Nat) (d : Db), dbs[i]? = some d → d.Good hash) (hl : dbs.length = N)
    (hcs : Server.copyAll e dbs = some (dbs, cs)) {sel : Nat} (hst : StartOk (vw dbs) sel) (hlive : ∀ i k d, (vw dbs i).t k = some d → T ≤ fl d)
    (htok : ∀ (i : Nat) (d : Db), dbs[i]? = some d → TOk d.view) {ch : List Aof.Chore} (hch : Aof.chores e 0 cs = some ch) :
    JobOk hash lower pf T N (vw dbs) sel [] ⟨todos ch, []⟩ := by
  obtain ⟨cs', c1, c2, c3⟩ := copyAll_ref e he dbs g
  rw [hcs] at c1; cases c1
  have hcg : ∀ (j : Nat) (c : Db), cs[j]? = some c → c.Good hash ∧ c.view = vw dbs j ∧ TOk c.view := by
    intro j c hc
    obtain ⟨d, hd⟩ := get_lt (l := dbs) (i := j) (by rw [← c2]; exact lt_get hc)
    obtain ⟨c', k1, k2, k3⟩ := c3 j d hd
    rw [hc] at k1; cases k1
    exact ⟨k2, by rw [vw_get hd, k3], by rw [k3]; exact htok j d hd⟩
  have hmem : ∀ c ∈ cs, ∃ j, cs[j]? = some c := fun c hc => List.getElem?_of_mem hc
  obtain ⟨ch', h1, h2, h3, h4, h5⟩ := chores_pend (N := N) e he cs 0 (fun c hc => by obtain ⟨j, hj⟩ := hmem c hc; exact (hcg j c hj).1)
  rw [hch] at h1; cases h1
  have hlast : lastSel 0 cs 0 = sel := by
    have hne : ∀ (j : Nat) (c : Db), cs[j]? = some c → c.dict.toList ≠ [] → ∃ k, (vw dbs j).v k ≠ none := by
      intro j c hc hne
      obtain ⟨q1, q2, _⟩ := hcg j c hc
      cases hl : c.dict.toList with
      | nil => exact absurd hl hne
      | cons a l =>
        refine ⟨a.1, ?_⟩
        rw [← q2, Ne, view_none, (Dict.abs_eq_some q1.dict.inv a.1 a.2).2 (by rw [hl]; simp)]
        simp
    refine lastSel_eq cs 0 0 (fun j c hc hn => ?_) ?_
    · obtain ⟨k, hk⟩ := hne j c hc hn
      have := hst.last j k hk; omega
    · rcases hst.some with h | ⟨k, hk⟩
      · exact Or.inl ⟨h.symm, by omega⟩
      · refine Or.inr ⟨by omega, ?_⟩
        cases hc : cs[sel - 0]? with
        | none =>
          rw [Nat.sub_zero, List.getElem?_eq_none_iff, c2] at hc
          rw [vw_out hc] at hk
          exact absurd rfl hk
        | some c =>
          refine ⟨c, rfl, fun hnil => hk ?_⟩
          obtain ⟨q1, q2, _⟩ := hcg _ c hc
          rw [Nat.sub_zero] at q2
          rw [← q2, view_none, Dict.abs_eq_none]
          simp [hnil]
  refine ⟨fun it sh st hm => ?_, h3, [], [], noData, 0, sel, rfl, recsOk_nil, rfl, recsOk_nil, .refl _ _, fun _ _ _ => ⟨rfl, rfl⟩, ?_, ?_⟩
  · obtain ⟨c, m, q1, q2⟩ := h4 it sh st hm
    obtain ⟨j, hj⟩ := hmem c m
    obtain ⟨r1, r2, r3⟩ := hcg j c hj
    have hv : c.view.v it.key = some it.obj.view := by simp [Db.view, q1]
    refine ⟨r1.objs _ _ q1, hst.simple j it.key _ (by rw [← r2]; exact hv), fun d hd => ?_⟩
    have ht : c.view.t it.key = some d := by rw [← hd, q2]; rfl
    exact ⟨hlive j it.key d (by rw [← r2]; exact ht), (r3 _ d ht).2⟩
  · rw [← hlast]; exact h5 (by rw [c2, hl]; omega) 0
  · refine Afar.start (fun i k => ?_)
    rw [h2 i k, if_pos (Nat.zero_le _), Nat.sub_zero]
    cases hc : cs[i]? with
    | none =>
      rw [List.getElem?_eq_none_iff, c2] at hc
      rw [vw_out hc]
      exact ⟨rfl, rfl⟩
    | some c =>
      obtain ⟨r1, r2, _⟩ := hcg i c hc
      rw [← r2]
      have hv : c.view.v k = (c.dict.abs k).map Obj.view := rfl
      cases ha : c.dict.abs k with
      | none =>
        rw [hv, ha]
        refine ⟨by rw [Option.bind_some, ha]; rfl, ?_⟩
        rw [r2]; exact hst.orphan i k (by rw [← r2, hv, ha]; rfl)
      | some o =>
        rw [hv, ha]
        rw [Option.bind_some, ha]; rfl

end
end Metis
