import Verif.Proofs.Apart
import Verif.Props.Calm
/-!
Properties C73 (clients on different keys do not affect each other), C74 (requests on different keys commute) and C75 (the hash function
cannot be observed).
-/
set_option linter.unusedSectionVars false
set_option linter.unusedSimpArgs false
set_option linter.unusedVariables false
namespace Metis.Props.ApartP
open Metis Spec
open _root_.Metis.Props.KeysP (accepts_iff)
open _root_.Metis.Props.CalmP (logged)
variable {hash hash' : Bytes → Nat} {s s' t t' : Sys} {z : Zone} {r : List Bytes}

/-- When a value and a deadline on one server are the same as those on another. -/
abbrev Rel : Type := Option AObj → Option Int → Option AObj → Option Int → Prop

/-- The two servers are the same as far as the zone is concerned, where `R` says what is the same. -/
structure SameR (R : Rel) (z : Zone) (s t : Sys) : Prop where
  pw : t.srv.password = s.srv.password
  len : t.srv.dbs.length = s.srv.dbs.length
  sess : ∀ fd, z.who fd = true → t.sess fd = s.sess fd
  data : ∀ i k, z.keys i k → R (s.val i k) (s.deadline i k) (t.val i k) (t.deadline i k)
  task : z.rewrites → t.srv.task = s.srv.task

/-- The same values according to `V`, and the same deadlines. -/
abbrev SameV (V : Option AObj → Option AObj → Prop) (z : Zone) (s t : Sys) : Prop := SameR (fun v d v' d' => V v v' ∧ d' = d) z s t

/-- The two servers are the same as far as the zone is concerned. -/
abbrev Same (z : Zone) (s t : Sys) : Prop := SameV (fun a b => b = a) z s t

theorem same_refl : Same z s s := ⟨rfl, rfl, fun _ _ => rfl, fun _ _ _ => ⟨rfl, rfl⟩, fun _ => rfl⟩

theorem same_symm (h : Same z s t) : Same z t s :=
  ⟨h.pw.symm, h.len.symm, fun x hx => (h.sess x hx).symm, fun i k hk => ⟨(h.data i k hk).1.symm, (h.data i k hk).2.symm⟩, fun hr => (h.task hr).symm⟩

/-- No key of the zone in database `i` is past its deadline. -/
def Fresh (z : Zone) (s : Sys) (i : Nat) (now : Int) : Prop := ∀ k dl, z.keys i k → s.deadline i k = some dl → ¬ dl < now

/-- The zone's clients keep to it. -/
def Inside (z : Zone) (s : Sys) : Event → Prop
  | .request fd e args => ∀ c cmd, s.sess fd = some c → commandOf e args = some cmd → z.Keeps c.db cmd args
  | _ => True

/-- The other clients keep out of it; KEYS, RANDOMGET and the cron, which remove expired keys of any name, run only while no key of the
zone is past its deadline. -/
def Outside (z : Zone) (s : Sys) : Event → Prop
  | .request fd e args => ∀ c cmd, s.sess fd = some c → commandOf e args = some cmd →
      z.Avoids c.db cmd args ∧ (cmd = .keys ∨ cmd = .randomget → Fresh z s c.db e.now)
  | .cron e => ∀ i, Fresh z s i e.now
  | _ => True

theorem same_sess {R} (h : SameR R z s t) (fd : Nat) (o : Option Session) :
    SameR R z ⟨s.srv, fun x => if x = fd then o else s.sess x⟩ ⟨t.srv, fun x => if x = fd then o else t.sess x⟩ :=
  ⟨h.pw, h.len, fun x hx => by simp only [h.sess x hx], h.data, h.task⟩

theorem call_quiet {e : Env} {entry : CmdEntry} {args : List Bytes} {srv srv' : Server} {c c' : Session} 
    (h : Server.proc entry.proc e args srv c = some (srv', c', r)) (hd : srv'.dirty = srv.dirty) :
    Server.call e entry args srv c = some (srv', c', r) := by
  unfold Server.call
  rw [h]
  simp only [Option.bind_eq_bind, Option.bind_some]
  rw [if_neg (by rintro ⟨_, h⟩; omega)]

theorem select_other {e : Env} {args : List Bytes} {srv srv' : Server} {c c' : Session} (hl : srv'.dbs.length = srv.dbs.length)
    (h : Server.select e args srv c = some (srv, c', r)) {lv : Nat → Nat} :
    Server.select { e with hash := hash', level := lv } args srv' c = some (srv', c', r) := by
  unfold Server.select at h ⊢
  cases ha : args[1]? with
  | none => rw [ha] at h; cases h
  | some a =>
    rw [ha] at h
    simp only [Option.bind_eq_bind, Option.bind_some] at h ⊢
    cases hi : atoi a with
    | none => rw [hi] at h; simp only at h ⊢; cases h; rfl
    | some i =>
      rw [hi] at h
      simp only at h ⊢
      rw [hl]
      by_cases h1 : i ≥ (srv.dbs.length : Int)
      · rw [if_pos h1] at h ⊢; cases h; rfl
      · rw [if_neg h1] at h ⊢
        by_cases h2 : i < 0
        · rw [if_pos h2] at h; cases h
        · rw [if_neg h2] at h ⊢; cases h; rfl

theorem auth_other {e e' : Env} {args : List Bytes} {srv srv' : Server} {c c' : Session} (hp : srv'.password = srv.password)
    (h : Server.auth e args srv c = some (srv, c', r)) : Server.auth e' args srv' c = some (srv', c', r) := by
  unfold Server.auth at h ⊢
  rw [hp]
  by_cases h1 : srv.password = []
  · rw [if_pos h1] at h ⊢; cases h; rfl
  · rw [if_neg h1] at h ⊢
    cases ha : args[1]? with
    | none => rw [ha] at h; cases h
    | some a =>
      rw [ha] at h
      simp only [Option.bind_eq_bind, Option.bind_some] at h ⊢
      by_cases h2 : srv.password = a
      · rw [if_pos h2] at h ⊢; cases h; rfl
      · rw [if_neg h2] at h ⊢; cases h; rfl

theorem astep_det {e : Env} {args : List Bytes} {v : AS} {c : Cmd} {a : AOut} {f} (hf : aFn c = some f) (h : AStep e args v c a) : f e args v = some a := by
  cases h with
  | det q1 q2 => rw [hf] at q1; cases q1; exact q2
  | spop => cases hf
  | spopEmpty => cases hf
  | randomget => cases hf

/-- Only BGREWRITEAOF concerns the background task. -/
theorem task_keep {fd : Nat} {e : Env} {args : List Bytes} (g : SysGood hash s) (he : e.hash = hash)
    (hb : commandOf e args ≠ some .bgrewriteaof) (h : Sys.step s (.request fd e args) = some (s', r)) : s'.srv.task = s.srv.task := by
  simp only [Sys.step, Option.bind_eq_bind, Option.bind_eq_some_iff] at h
  obtain ⟨c, hc, ⟨srv', c', r'⟩, h1, h2⟩ := h
  cases h2
  cases served he g.srv h1 with
  | unknown => rfl
  | rejected => rfl
  | select => rfl
  | auth => rfl
  | rewrite a0 ha cmd hl hc => exact absurd (hc ▸ commandOf_of ha hl) hb
  | db a0 ha cmd hl hok hauth f hf d0 hd o ho a hst hrel srv' hfeed =>
    split at hfeed
    · obtain ⟨_, _, _, _, _, h, _⟩ := feed_ref hfeed; exact h
    · cases hfeed; rfl

/-- The same deterministic command on two databases. -/
def Same2R (R : Rel) (K : Bytes → Prop) : Option AOut → Option AOut → Prop
  | none, none => True
  | some a, some a' => (∀ k, K k → R (a.s.v k) (a.s.t k) (a'.s.v k) (a'.s.t k)) ∧ a'.dirty = a.dirty ∧ a'.reply = a.reply
  | _, _ => False

/-- The same, for a relation between values. -/
def Same2 (V : Option AObj → Option AObj → Prop) (K : Bytes → Prop) : Option AOut → Option AOut → Prop
  | none, none => True
  | some a, some a' => (∀ k, K k → V (a.s.v k) (a'.s.v k) ∧ a'.s.t k = a.s.t k) ∧ a'.dirty = a.dirty ∧ a'.reply = a.reply
  | _, _ => False

/-- The request does the same, up to `V`, with another hash function and other levels on any two databases that are the same as far as the zone is concerned. -/
def Both (V : Option AObj → Option AObj → Prop) (z : Zone) (s : Sys) (h' : Bytes → Nat) (lv : Nat → Nat) : Event → Prop
  | .request fd e args => ∀ c cmd f (v v' : AS), s.sess fd = some c → commandOf e args = some cmd → aFn cmd = some f →
      (∀ k, z.keys c.db k → V (v.v k) (v'.v k) ∧ v'.t k = v.t k) →
      Same2 V (z.keys c.db) (f e args v) (f { e with hash := h', level := lv } args v')
  | _ => True

/-- The request does the same, up to `R`, with another hash function and other levels on the databases of the client. -/
def BothR (R : Rel) (z : Zone) (s t : Sys) (h' : Bytes → Nat) (lv : Nat → Nat) : Event → Prop
  | .request fd e args => ∀ c cmd f (d d' : Db), s.sess fd = some c → commandOf e args = some cmd → aFn cmd = some f →
      s.srv.dbs[c.db]? = some d → t.srv.dbs[c.db]? = some d' →
      (∀ k, z.keys c.db k → R (d.view.v k) (d.view.t k) (d'.view.v k) (d'.view.t k)) →
      Same2R R (z.keys c.db) (f e args d.view) (f { e with hash := h', level := lv } args d'.view)
  | _ => True

/-- `inside`, for any notion of equal values and deadlines that the request respects; the request also makes as many changes on both. -/
theorem insideD {R : Rel} {lv : Nat → Nat} (g : SysGood hash s) (g' : SysGood hash' t) (w : SameR R z s t) {ev : Event}
    (hm : z.mine ev = true) (he : EvOk hash ev) (hk : Inside z s ev) (hV : BothR R z s t hash' lv ev) (h : Sys.step s ev = some (s', r)) :
    ∃ t' r', Sys.step t (Event.reshaped hash' lv ev) = some (t', r') ∧ Like ev r r' ∧ SameR R z s' t' ∧
      t'.srv.dirty - t.srv.dirty = s'.srv.dirty - s.srv.dirty := by
  cases ev with
  | cron e => cases hm
  | connect fd =>
    simp only [Sys.step] at h
    split at h
    · cases h
    · next hn =>
      cases h
      exact ⟨⟨t.srv, fun x => if x = fd then some Session.new else t.sess x⟩, [], by simp only [Event.reshaped, Sys.step]; rw [w.len, if_neg hn], rfl, same_sess w fd _, by simp⟩
  | close fd =>
    cases h
    exact ⟨⟨t.srv, fun x => if x = fd then none else t.sess x⟩, [], rfl, rfl, same_sess w fd _, by simp⟩
  | request fd e args =>
    have h0 := h
    simp only [Sys.step, Option.bind_eq_bind, Option.bind_eq_some_iff] at h
    obtain ⟨c, hc, ⟨srv', c', r0⟩, h1, h2⟩ := h
    simp only [Option.some.injEq, Prod.mk.injEq] at h2
    obtain ⟨rfl, rfl⟩ := h2
    have hc' : t.sess fd = some c := by rw [w.sess fd hm, hc]
    have key : ∀ (srv1 : Server) c1 r1, Server.processCommand { e with hash := hash', level := lv } args t.srv c = some (srv1, c1, r1) →
        Sys.step t (Event.reshaped hash' lv (.request fd e args)) = some (⟨srv1, fun x => if x = fd then some c1 else t.sess x⟩, r1) := by
      intro srv1 c1 r1 hp
      simp only [Event.reshaped, Sys.step, hc', hp, Option.bind_eq_bind, Option.bind_some]
    have quiet : Server.processCommand { e with hash := hash', level := lv } args t.srv c = some (t.srv, c', r0) → srv' = s.srv →
        ∃ t' r', Sys.step t (Event.reshaped hash' lv (.request fd e args)) = some (t', r') ∧ Like (.request fd e args) r0 r' ∧
          SameR R z ⟨srv', fun x => if x = fd then some c' else s.sess x⟩ t' ∧ t'.srv.dirty - t.srv.dirty = srv'.dirty - s.srv.dirty := by
      intro hp hs
      subst hs
      exact ⟨_, _, key _ _ _ hp, Or.inl rfl, same_sess w fd _, by simp⟩
    unfold Server.processCommand at h1
    cases ha : args[0]? with
    | none => rw [ha] at h1; cases h1
    | some a0 =>
    rw [ha] at h1
    simp only [Option.bind_eq_bind, Option.bind_some] at h1
    cases hl : lookupCommand (e.lower a0) with
    | none =>
      rw [hl] at h1
      cases h1
      exact quiet (by simp only [Server.processCommand, ha, hl, Option.bind_eq_bind, Option.bind_some]) rfl
    | some entry =>
    rw [hl] at h1
    simp only at h1
    obtain ⟨hmem, hn⟩ := lookup_mem hl
    have hcmd := commandOf_of ha hl
    have hkeep := hk c entry.proc hc hcmd
    by_cases hb : Server.badArity args.length entry.arity = true
    · rw [if_pos hb] at h1
      cases h1
      exact quiet (by simp only [Server.processCommand, ha, hl, hb, Option.bind_eq_bind, Option.bind_some, if_true]) rfl
    rw [if_neg hb] at h1
    by_cases hp : s.srv.password ≠ [] ∧ c.auth = false ∧ e.lower a0 ≠ b!"auth"
    · rw [if_pos hp] at h1
      cases h1
      refine quiet ?_ rfl
      simp only [Server.processCommand, ha, hl, hb, Option.bind_eq_bind, Option.bind_some, if_false, w.pw]
      rw [if_pos hp]; rfl
    rw [if_neg hp] at h1
    have hcall : Server.processCommand { e with hash := hash', level := lv } args t.srv c = Server.call { e with hash := hash', level := lv } entry args t.srv c := by
      simp only [Server.processCommand, ha, hl, hb, Option.bind_eq_bind, Option.bind_some, if_false, w.pw]
      rw [if_neg hp]; rfl
    rcases proc_db_iff entry.proc with ⟨f, hf⟩ | hq | hq | hq
    · have hbad : Server.badArity args.length (arity entry.proc) = false := by
        rw [← table_arity _ hmem]; simpa using hb
      have hal : Allowed s.srv c := by
        by_cases q1 : s.srv.password = []
        · exact Or.inl q1
        · by_cases q2 : c.auth = true
          · exact Or.inr q2
          · refine (hp ⟨q1, by simpa using q2, ?_⟩).elim
            rw [← hn]
            intro hx
            rw [(table_auth entry hmem).1 hx] at hf
            cases hf
      obtain ⟨d, o, a, d1, d2, d3, d4, d5, d6, d7⟩ := step_request g he h0 hc hal hcmd hbad hf
      obtain ⟨d', hd'⟩ := get_lt (g'.sess fd c hc')
      have hag : ∀ k, z.keys c.db k → R (d.view.v k) (d.view.t k) (d'.view.v k) (d'.view.t k) := by
        intro k hk
        have := w.data _ _ hk
        rw [val_eq d1, val_eq hd', deadline_eq d1, deadline_eq hd'] at this
        exact this
      obtain ⟨f', hf'⟩ : ∃ f', aFn entry.proc = some f' := by
        cases hx : aFn entry.proc with
        | some f' => exact ⟨f', rfl⟩
        | none =>
          exfalso
          obtain ⟨k1, k2, _⟩ := hkeep
          generalize entry.proc = p at hf hx k1 k2
          cases p <;> first | (cases hx; done) | (cases hf; done) | exact k1 rfl | exact k2 rfl
      have hda := astep_det hf' d3
      have htw := hV c entry.proc f' d d' hc hcmd hf' d1 hd' hag
      rw [hda] at htw
      cases ha' : f' { e with hash := hash', level := lv } args d'.view with
      | none => rw [ha'] at htw; exact htw.elim
      | some a' =>
        rw [ha'] at htw
        obtain ⟨t1, t2, t3⟩ := htw
        obtain ⟨s2, r2, o2, w1, w2, w3, w4, w5, w7, _, _, w6⟩ := step_det (e := { e with hash := hash', level := lv }) g' rfl hc' (by
            rcases hal with q | q
            · exact Or.inl (w.pw.trans q)
            · exact Or.inr q) (show commandOf { e with hash := hash', level := lv } args = some entry.proc from hcmd) hbad hf hf' hd' ha'
          (fun hne => logged (e := { e with hash := hash', level := lv }) hcmd ((accepts_iff _ _).1 hbad) hf' ha' hne)
        refine ⟨s2, r2, w1, ?_, ?_, ?_⟩
        · have q1 := d5
          have q2 : a.reply r2 := by rw [← t3, w4]; exact w3.reply
          cases hu : unordered entry.proc with
          | false => exact Or.inl (plain_det hf' hu a hda _ _ q1 q2)
          | true =>
            rcases loose_det hf' hu a hda _ _ q1 q2 with q | q
            · exact Or.inl q
            · exact Or.inr ⟨⟨_, hcmd, hu⟩, q⟩
        · obtain ⟨_, m1, _, m2, _⟩ := step_db g he h0
          obtain ⟨_, m3, _, m4, _⟩ := step_db g' (show EvOk hash' (.request fd { e with hash := hash', level := lv } args) from rfl) w1
          refine ⟨m3.trans (w.pw.trans m1.symm), m4.trans (w.len.trans m2.symm), fun x hx => ?_, fun i k hik => ?_, fun ht => ?_⟩
          · rw [w6 x, d7 x, w.sess x hx]
          · by_cases hi : c.db = i
            · subst hi
              have z1 : (s.srv.dbs.set c.db o.db)[c.db]? = some o.db := by rw [set_get d1, if_pos rfl]
              have z2 : (t.srv.dbs.set c.db o2.db)[c.db]? = some o2.db := by rw [set_get hd', if_pos rfl]
              rw [← d6] at z1
              rw [← w5] at z2
              rw [val_eq z1, val_eq z2, deadline_eq z1, deadline_eq z2, d4.view, w3.view]
              exact t1 k hik
            · have := w.data i k hik
              unfold Sys.val Sys.deadline at this ⊢
              rw [d6, w5, set_get d1, set_get hd', if_neg hi, if_neg hi]
              exact this
          · have hnb : commandOf e args ≠ some .bgrewriteaof := by
              rw [hcmd]; intro hx; rw [Option.some.inj hx] at hf; cases hf
            rw [task_keep g he hnb h0, task_keep (e := { e with hash := hash', level := lv }) g' rfl hnb w1, w.task ht]
        · obtain ⟨s3, r3, o3, x1, _, _, _, _, x2, _⟩ := step_det g he hc hal hcmd hbad hf hf' d1 hda
            (fun hne => logged hcmd ((accepts_iff _ _).1 hbad) hf' hda hne)
          rw [h0] at x1
          cases x1
          rw [w7, x2, t2]
          omega
    · unfold Server.call at h1
      rw [hq] at h1
      simp only [Server.proc] at h1
      cases hs : Server.select e args s.srv c with
      | none => rw [hs] at h1; cases h1
      | some p =>
        obtain ⟨srv1, c1, r1⟩ := p
        have := select_same hs
        subst this
        simp only [hs, Option.bind_eq_bind, Option.bind_some] at h1
        rw [if_neg (by rintro ⟨_, h⟩; omega)] at h1
        cases h1
        exact quiet (by rw [hcall]; exact call_quiet (by rw [hq]; exact select_other w.len hs) rfl) rfl
    · unfold Server.call at h1
      rw [hq] at h1
      simp only [Server.proc] at h1
      cases hs : Server.auth e args s.srv c with
      | none => rw [hs] at h1; cases h1
      | some p =>
        obtain ⟨srv1, c1, r1⟩ := p
        have := auth_same hs
        subst this
        simp only [hs, Option.bind_eq_bind, Option.bind_some] at h1
        rw [if_neg (by rintro ⟨_, h⟩; omega)] at h1
        cases h1
        exact quiet (by rw [hcall]; exact call_quiet (by rw [hq]; exact auth_other (e' := { e with hash := hash', level := lv }) w.pw hs) rfl) rfl
    · have ht := w.task (hkeep.2.2.1 hq)
      unfold Server.call at h1
      rw [hq] at h1
      simp only [Server.proc] at h1
      by_cases hb' : s.srv.task ≠ .none
      · have hs : Server.bgRewriteAof e args s.srv c = some (s.srv, c, Reply.simple b!"Background append only file rewriting scheduled") := by
          unfold Server.bgRewriteAof; rw [if_pos hb']
        simp only [hs, Option.bind_eq_bind, Option.bind_some] at h1
        rw [if_neg (by rintro ⟨_, h⟩; omega)] at h1
        cases h1
        refine quiet ?_ rfl
        rw [hcall]
        refine call_quiet ?_ rfl
        rw [hq]
        simp only [Server.proc, Server.bgRewriteAof]
        rw [ht, if_pos hb']
      · obtain ⟨cs, k1, _⟩ := copyAll_ref e he s.srv.dbs g.srv
        obtain ⟨cs', k1', _⟩ := copyAll_ref { e with hash := hash', level := lv } rfl t.srv.dbs g'.srv
        have hs : Server.bgRewriteAof e args s.srv c = some ({ s.srv with task := .aofRewrite, dbs := s.srv.dbs, snapshot := some cs }, c,
            Reply.simple b!"Background append only file rewriting started") := by
          unfold Server.bgRewriteAof Server.startRewrite; rw [if_neg hb', if_neg hb', k1]; rfl
        have hs' : Server.bgRewriteAof { e with hash := hash', level := lv } args t.srv c =
            some ({ t.srv with task := .aofRewrite, dbs := t.srv.dbs, snapshot := some cs' }, c,
              Reply.simple b!"Background append only file rewriting started") := by
          unfold Server.bgRewriteAof Server.startRewrite; rw [ht, if_neg hb', if_neg hb', k1']; rfl
        simp only [hs, Option.bind_eq_bind, Option.bind_some] at h1
        rw [if_neg (by rintro ⟨_, h⟩; simp at h)] at h1
        cases h1
        rw [show Server.bgRewriteAof = Server.proc entry.proc by rw [hq]; rfl] at hs'
        have hc2 := call_quiet hs' rfl
        refine ⟨_, _, key _ _ _ (hcall.trans hc2), Or.inl rfl, ?_, by simp⟩
        have := same_sess w fd (some c)
        exact ⟨this.pw, this.len, this.sess, this.data, fun _ => rfl⟩

theorem insideR {R : Rel} {lv : Nat → Nat} (g : SysGood hash s) (g' : SysGood hash' t) (w : SameR R z s t) {ev : Event}
    (hm : z.mine ev = true) (he : EvOk hash ev) (hk : Inside z s ev) (hV : BothR R z s t hash' lv ev) (h : Sys.step s ev = some (s', r)) :
    ∃ t' r', Sys.step t (Event.reshaped hash' lv ev) = some (t', r') ∧ Like ev r r' ∧ SameR R z s' t' := by
  obtain ⟨t', r', h1, h2, h3, _⟩ := insideD g g' w hm he hk hV h
  exact ⟨t', r', h1, h2, h3⟩

/-- `inside`, for any notion of equal values that the request respects. -/
theorem insideV {V : Option AObj → Option AObj → Prop} {lv : Nat → Nat} (g : SysGood hash s) (g' : SysGood hash' t) (w : SameV V z s t) {ev : Event}
    (hm : z.mine ev = true) (he : EvOk hash ev) (hk : Inside z s ev) (hV : Both V z s hash' lv ev) (h : Sys.step s ev = some (s', r)) :
    ∃ t' r', Sys.step t (Event.reshaped hash' lv ev) = some (t', r') ∧ Like ev r r' ∧ SameV V z s' t' := by
  refine insideR g g' w hm he hk ?_ h
  cases ev with
  | request fd e args =>
    intro c cmd f d d' h1 h2 h3 h4 h5 h6
    have := hV c cmd f d.view d'.view h1 h2 h3 h6
    revert this
    cases f e args d.view <;> cases f { e with hash := hash', level := lv } args d'.view <;> exact id
  | _ => trivial

/-- The zone sees only itself: a request of the zone's clients has the same effect and reply on any other server that is the same as
far as the zone is concerned. -/
theorem inside (g : SysGood hash s) (g' : SysGood hash' t) (w : Same z s t) {ev : Event} (hm : z.mine ev = true) (he : EvOk hash ev)
    (hk : Inside z s ev) (h : Sys.step s ev = some (s', r)) :
    ∃ t' r', Sys.step t (Event.hashed hash' ev) = some (t', r') ∧ Like ev r r' ∧ Same z s' t' := by
  have key : ∀ lv, Both (fun a b => b = a) z s hash' lv ev → Event.hashed hash' ev = Event.reshaped hash' lv ev →
      ∃ t' r', Sys.step t (Event.hashed hash' ev) = some (t', r') ∧ Like ev r r' ∧ Same z s' t' := by
    intro lv hV hev
    rw [hev]
    exact insideV g g' w hm he hk hV h
  cases ev with
  | cron e => cases hm
  | connect => exact key (fun _ => 1) trivial rfl
  | close => exact key (fun _ => 1) trivial rfl
  | request fd e args =>
    refine key e.level ?_ rfl
    intro c cmd f v v' hc hcmd hf hag
    have hkeep := hk c cmd hc hcmd
    have := twin_det (e := e) (args := args) hf hkeep.2.2.2.1 hkeep.2.2.2.2 hag
    rw [show ({ e with hash := hash', level := e.level } : Env) = { e with hash := hash' } from rfl, aFn_hash hf hash']
    revert this
    cases f e args v <;> cases f e args v' <;> intro this <;> first | exact this | exact this.elim

/-- What other clients do outside the zone does not change the zone. -/
theorem outside (g : SysGood hash s) (w : Same z s t) {ev : Event} (hm : z.mine ev = false) (he : EvOk hash ev)
    (hk : Outside z s ev) (h : Sys.step s ev = some (s', r)) : Same z s' t := by
  obtain ⟨_, m1, _, m2, m3⟩ := step_db g he h
  have hsess : ∀ fd, z.who fd = true → s'.sess fd = s.sess fd := by
    intro x hx
    cases ev with
    | cron e =>
      simp only [Sys.step, Option.bind_eq_bind, Option.bind_eq_some_iff] at h
      obtain ⟨_, _, h3⟩ := h
      cases h3; rfl
    | connect fd =>
      simp only [Sys.step] at h
      split at h
      · cases h
      · cases h
        have : x ≠ fd := fun hh => by subst hh; rw [show z.mine (.connect x) = z.who x from rfl, hx] at hm; cases hm
        simp only [if_neg this]
    | close fd =>
      cases h
      have : x ≠ fd := fun hh => by subst hh; rw [show z.mine (.close x) = z.who x from rfl, hx] at hm; cases hm
      simp only [if_neg this]
    | request fd e args =>
      simp only [Sys.step, Option.bind_eq_bind, Option.bind_eq_some_iff] at h
      obtain ⟨c, hc, ⟨srv', c', r'⟩, h1, h2⟩ := h
      cases h2
      have : x ≠ fd := fun hh => by subst hh; rw [show z.mine (.request x e args) = z.who x from rfl, hx] at hm; cases hm
      simp only [if_neg this]
  have htask : z.rewrites → s'.srv.task = s.srv.task := by
    intro hr
    cases ev with
    | cron e =>
      simp only [Sys.step, databasesCron, Option.bind_eq_bind, Option.bind_eq_some_iff] at h
      obtain ⟨_, ⟨_, _, h2⟩, h3⟩ := h
      cases h3; cases h2; rfl
    | connect fd =>
      simp only [Sys.step] at h
      split at h
      · cases h
      · cases h; rfl
    | close fd => cases h; rfl
    | request fd e args =>
      refine task_keep g he ?_ h
      intro hb
      have h' := h
      simp only [Sys.step, Option.bind_eq_bind, Option.bind_eq_some_iff] at h'
      obtain ⟨c, hc, _⟩ := h'
      exact (hk c _ hc hb).1.1 rfl hr
  refine ⟨w.pw.trans m1.symm, w.len.trans m2.symm, fun x hx => by rw [hsess x hx]; exact w.sess x hx, fun i k hik => ?_,
    fun hr => by rw [htask hr]; exact w.task hr⟩
  obtain ⟨d1, d2⟩ := w.data i k hik
  rw [d1, d2]
  cases hd : s.srv.dbs[i]? with
  | none =>
    have : s'.srv.dbs[i]? = none := by
      rw [List.getElem?_eq_none_iff] at hd ⊢; omega
    simp [Sys.val, Sys.deadline, hd, this]
  | some d =>
    obtain ⟨d', hd', _, mv⟩ := m3 i d hd
    rw [val_eq hd, val_eq hd', deadline_eq hd, deadline_eq hd']
    have sw : ∀ {e : Env}, Swept e d.view d'.view → Fresh z s i e.now → d.view.v k = d'.view.v k ∧ d.view.t k = d'.view.t k := by
      intro e hs hf
      rcases hs k with ⟨q1, q2⟩ | ⟨q1, _⟩
      · exact ⟨q1.symm, q2.symm⟩
      · obtain ⟨dl, q2, q3⟩ := expired_passed q1
        exact (hf k dl hik (by rw [deadline_eq hd]; exact q2) q3).elim
    cases mv with
    | same h => rw [h]; exact ⟨rfl, rfl⟩
    | cron hsw => exact sw hsw (hk i)
    | request c hc hi cmd hcmd hok hauth a hst hda hr =>
      obtain ⟨q1, q2⟩ := hk c cmd hc hcmd
      subst hi
      by_cases hsw : cmd = .keys ∨ cmd = .randomget
      · have hw : writes cmd = false := by rcases hsw with rfl | rfl <;> rfl
        exact sw (e := _) (hda ▸ (reads hst hw).1) (q2 hsw)
      · have := frame hst (fun h => hsw (Or.inl h)) (fun h => hsw (Or.inr h)) k (fun h => q1.2 k h hik)
        rw [hda]; exact ⟨this.1.symm, this.2.symm⟩

/-- Along the history, the zone's clients keep to it and the others keep out of it. -/
def Held (out : Zone → Sys → Event → Prop) (z : Zone) : Sys → List Event → Prop
  | _, [] => True
  | s, ev :: rest => (if z.mine ev = true then Inside z s ev else out z s ev) ∧ ∀ s' r, Sys.step s ev = some (s', r) → Held out z s' rest

/-- The two lists of replies to the same events say the same. -/
def Alike (evs : List (Event × List Bytes)) (rs : List (List Bytes)) : Prop := List.Forall₂ (fun p r' => Like p.1 p.2 r') evs rs

theorem apart : ∀ (evs : List Event) {s t s' : Sys} {rs}, SysGood hash s → SysGood hash' t → Same z s t → (∀ ev ∈ evs, EvOk hash ev) →
    Held Outside z s evs → Sys.run s evs = some (s', rs) →
    ∃ t' rs', Sys.run t ((evs.filter z.mine).map (Event.hashed hash')) = some (t', rs') ∧
      Alike ((evs.zip rs).filter (fun p => z.mine p.1)) rs' ∧ Same z s' t'
  | [], s, t, s', rs, g, g', w, _, _, h => by cases h; exact ⟨t, [], rfl, .nil, w⟩
  | ev :: rest, s, t, s', rs, g, g', w, he, hh, h => by
    obtain ⟨s1, r, rs1, h1, h2, h3⟩ := run_cons h
    simp only at h2 h3
    subst h3
    obtain ⟨q1, q2⟩ := hh
    have g1 := (step_db g (he ev (by simp)) h1).1
    by_cases hm : z.mine ev = true
    · rw [if_pos hm] at q1
      obtain ⟨t1, r', p1, p2, p3⟩ := inside g g' w hm (he ev (by simp)) q1 h1
      have he' : EvOk hash' (Event.hashed hash' ev) := by cases ev <;> first | rfl | trivial
      have g2 := (step_db g' he' p1).1
      obtain ⟨t', rs', k1, k2, k3⟩ := apart rest g1 g2 p3 (fun x hx => he x (by simp [hx])) (q2 _ _ h1) h2
      refine ⟨t', r' :: rs', ?_, ?_, k3⟩
      · rw [List.filter_cons_of_pos hm, List.map_cons]
        simp only [Sys.run, p1, k1, Option.bind_eq_bind, Option.bind_some]
      · rw [List.zip_cons_cons, List.filter_cons_of_pos (by exact hm)]
        exact .cons p2 k2
    · rw [if_neg hm] at q1
      have w1 := outside g w (by simpa using hm) (he ev (by simp)) q1 h1
      obtain ⟨t', rs', k1, k2, k3⟩ := apart rest g1 g' w1 (fun x hx => he x (by simp [hx])) (q2 _ _ h1) h2
      refine ⟨t', rs', ?_, ?_, k3⟩
      · rw [List.filter_cons_of_neg hm]; exact k1
      · rw [List.zip_cons_cons, List.filter_cons_of_neg (by exact hm)]; exact k2

theorem hashed_same {ev : Event} (h : EvOk hash ev) : Event.hashed hash ev = ev := by
  cases ev with
  | request fd e args => cases (show e.hash = hash from h); rfl
  | cron e => cases (show e.hash = hash from h); rfl
  | connect => rfl
  | close => rfl

/-! ### C73 -/

/-- The other clients keep out of the zone. -/
def Clear (z : Zone) (s : Sys) : Event → Prop
  | .request fd e args => ∀ c cmd, s.sess fd = some c → commandOf e args = some cmd → z.Avoids c.db cmd args
  | _ => True

/-- The full claim of C73: what the clients of a zone are told is what they would be told if the others were not there. -/
def C73 : Prop := ∀ (hash : Bytes → Nat) (z : Zone) (s s' : Sys) (evs : List Event) (rs : List (List Bytes)),
  Reach hash s → (∀ ev ∈ evs, EvOk hash ev) → Held Clear z s evs → Sys.run s evs = some (s', rs) →
  ∃ t' rs', Sys.run s (evs.filter z.mine) = some (t', rs') ∧ Alike ((evs.zip rs).filter (fun p => z.mine p.1)) rs'

/-- **C73, partial**: the claim holds, and the keys of the zone end up the same, if KEYS and RANDOMGET of the others and the cron run only
while no key of the zone is past its deadline. -/
theorem C73_partial {evs : List Event} {rs : List (List Bytes)} (hs : Reach hash s) (he : ∀ ev ∈ evs, EvOk hash ev) (hh : Held Outside z s evs)
    (h : Sys.run s evs = some (s', rs)) :
    ∃ t' rs', Sys.run s (evs.filter z.mine) = some (t', rs') ∧ Alike ((evs.zip rs).filter (fun p => z.mine p.1)) rs' ∧
      ∀ i k, z.keys i k → t'.val i k = s'.val i k ∧ t'.deadline i k = s'.deadline i k := by
  obtain ⟨t', rs', h1, h2, h3⟩ := apart evs hs.good hs.good same_refl he hh h
  refine ⟨t', rs', ?_, h2, h3.data⟩
  rw [← h1]
  congr 1
  conv_lhs => rw [← List.map_id (evs.filter z.mine)]
  exact List.map_congr_left fun ev hev => (hashed_same (he ev (List.mem_of_mem_filter hev))).symm

/-- Client 4 and the key "k". -/
def four : Zone := ⟨fun fd => fd == 4, fun _ k => k = b!"k", False⟩

/-- Client 4 sets a key that expires after a second; client 5 lists the keys of the server four seconds later; client 4 asks for the
remaining time. -/
def peek : List Event := [.connect 4, .connect 5, .request 4 (demo 0) [b!"setex", b!"k", b!"1", b!"v"], .request 5 (demo 5000) [b!"keys", b!"*"],
  .request 4 (demo 5000) [b!"ttl", b!"k"]]

theorem peek_ok : ∀ ev ∈ peek, EvOk (demo 0).hash ev := by
  intro ev hev
  simp only [peek, List.mem_cons, List.not_mem_nil, or_false] at hev
  rcases hev with rfl | rfl | rfl | rfl | rfl <;> first | trivial | rfl

theorem peek_held : Held Clear four (Sys.init 1 [] false) peek := by
  refine ⟨trivial, fun s1 _ _ => ⟨trivial, fun s2 _ _ => ⟨?_, fun s3 _ _ => ⟨?_, fun s4 _ _ => ⟨?_, fun _ _ _ => trivial⟩⟩⟩⟩⟩
  · intro c cmd _ hcmd
    cases (show some Cmd.setex = some cmd from hcmd)
    exact ⟨by decide, by decide, (by intro h; cases h), (by intro k hk; simpa [keysOf, four] using hk), (by intro h; cases h)⟩
  · intro c cmd _ hcmd
    cases (show some Cmd.keys = some cmd from hcmd)
    exact ⟨(by intro h; cases h), (by intro k hk; cases hk)⟩
  · intro c cmd _ hcmd
    cases (show some Cmd.ttl = some cmd from hcmd)
    exact ⟨by decide, by decide, (by intro h; cases h), (by intro k hk; simpa [keysOf, four] using hk), (by intro h; cases h)⟩

/-- **C73 is false of the code**: that client 5 listed the keys changes what client 4 is told about its own key. -/
theorem C73_refuted : ¬ C73 := by
  intro h
  have h1 : (Sys.run (Sys.init 1 [] false) peek).map Prod.snd = some [[], [], Reply.ok, [b!"*0\r\n"], [b!":-2\r\n"]] := by decide
  have h2 : (Sys.run (Sys.init 1 [] false) (peek.filter four.mine)).map Prod.snd = some [[], Reply.ok, [b!":-4\r\n"]] := by decide
  cases hr : Sys.run (Sys.init 1 [] false) peek with
  | none => rw [hr] at h1; cases h1
  | some p =>
    obtain ⟨s', rs⟩ := p
    rw [hr] at h1
    cases h1
    obtain ⟨t', rs', q1, q2⟩ := h _ four _ s' peek _ ⟨1, [], false, [], [], by simp, rfl⟩ peek_ok peek_held hr
    rw [q1] at h2
    cases h2
    cases q2 with
    | cons _ q2 => cases q2 with
      | cons _ q2 => cases q2 with
        | cons q2 _ =>
          rcases q2 with q2 | ⟨⟨cmd, q2, q3⟩, _⟩
          · exact absurd q2 (by decide)
          · cases (show some Cmd.ttl = some cmd from q2); cases q3

/-- A history in which everybody keeps to their keys. -/
def side : List Event := [.cron (demo 0), .connect 4, .connect 5, .request 5 (demo 0) [b!"set", b!"x", b!"1"], .request 4 (demo 0) [b!"set", b!"k", b!"2"],
  .request 5 (demo 1) [b!"get", b!"x"], .request 4 (demo 1) [b!"get", b!"k"]]

theorem init_fresh (n : Nat) (pw : Bytes) (aof : Bool) (i : Nat) (now : Int) : Fresh z (Sys.init n pw aof) i now := by
  intro k dl _ h
  unfold Sys.deadline at h
  cases hd : (Sys.init n pw aof).srv.dbs[i]? with
  | none => rw [hd] at h; cases h
  | some d =>
    rw [hd] at h
    have := List.mem_of_getElem? hd
    simp only [Sys.init, Server.init, List.mem_replicate] at this
    rw [this.2] at h
    have hn : Db.new.expire.abs = nil := abs_new
    simp only [Option.bind_some, Db.view, hn] at h
    cases h

example : Held Outside four (Sys.init 1 [] false) side ∧
    (Sys.run (Sys.init 1 [] false) side).map Prod.snd = some [[], [], [], Reply.ok, Reply.ok, Reply.bulk b!"1", Reply.bulk b!"2"] ∧
    (Sys.run (Sys.init 1 [] false) (side.filter four.mine)).map Prod.snd = some [[], Reply.ok, Reply.bulk b!"2"] := by
  refine ⟨?_, by decide, by decide⟩
  refine ⟨fun i => init_fresh 1 [] false i _, fun s1 _ _ => ⟨trivial, fun s2 _ _ => ⟨trivial, fun s3 _ _ => ⟨?_, fun s4 _ _ => ⟨?_, fun s5 _ _ => ⟨?_, fun s6 _ _ => ⟨?_, fun _ _ _ => trivial⟩⟩⟩⟩⟩⟩⟩
  · intro c cmd _ hcmd
    cases (show some Cmd.set = some cmd from hcmd)
    exact ⟨⟨(by intro h; cases h), (by intro k hk; simp [keysOf] at hk; subst hk; simp [four])⟩, (by rintro (h | h) <;> cases h)⟩
  · intro c cmd _ hcmd
    cases (show some Cmd.set = some cmd from hcmd)
    exact ⟨by decide, by decide, (by intro h; cases h), (by intro k hk; simpa [keysOf, four] using hk), (by intro h; cases h)⟩
  · intro c cmd _ hcmd
    cases (show some Cmd.get = some cmd from hcmd)
    exact ⟨⟨(by intro h; cases h), (by intro k hk; simp [keysOf] at hk; subst hk; simp [four])⟩, (by rintro (h | h) <;> cases h)⟩
  · intro c cmd _ hcmd
    cases (show some Cmd.get = some cmd from hcmd)
    exact ⟨by decide, by decide, (by intro h; cases h), (by intro k hk; simpa [keysOf, four] using hk), (by intro h; cases h)⟩

/-! ### C74 -/

/-- The keys a command looks at: those it names, and all for KEYS. -/
def foot (e : Env) (args : List Bytes) (k : Bytes) : Prop := ∃ cmd, commandOf e args = some cmd ∧ (k ∈ keysOf cmd args ∨ cmd = .keys)

/-- The command makes no random choice and starts no rewrite. -/
def plain (e : Env) (args : List Bytes) : Prop :=
  commandOf e args ≠ some .spop ∧ commandOf e args ≠ some .randomget ∧ commandOf e args ≠ some .bgrewriteaof

def zoneOf (fd db : Nat) (e : Env) (args : List Bytes) : Zone := ⟨fun x => x == fd, fun i k => i = db ∧ foot e args k, False⟩

theorem inside_own {fd : Nat} {c : Session} {e : Env} {args : List Bytes} (hc : s.sess fd = some c) (hp : plain e args) :
    Inside (zoneOf fd c.db e args) s (.request fd e args) := by
  intro c' cmd hc' hcmd
  rw [hc] at hc'; cases hc'
  exact ⟨fun h => hp.1 (h ▸ hcmd), fun h => hp.2.1 (h ▸ hcmd), fun h => (hp.2.2 (h ▸ hcmd)).elim, fun k hk => ⟨rfl, cmd, hcmd, Or.inl hk⟩,
    fun h k => ⟨rfl, cmd, hcmd, Or.inr h⟩⟩

theorem outside_any {z : Zone} {fd : Nat} {c : Session} {e : Env} {args : List Bytes} (hc : s.sess fd = some c) (hp : plain e args)
    (hz : ∀ k, foot e args k → ¬ z.keys c.db k) : Outside z s (.request fd e args) := by
  intro c' cmd hc' hcmd
  rw [hc] at hc'; cases hc'
  refine ⟨⟨fun h => (hp.2.2 (h ▸ hcmd)).elim, fun k hk => hz k ⟨cmd, hcmd, Or.inl hk⟩⟩, ?_⟩
  rintro (h | h)
  · exact fun k dl hk _ => (hz k ⟨cmd, hcmd, Or.inr h⟩ hk).elim
  · exact (hp.2.1 (h ▸ hcmd)).elim

/-- **C74**: two requests of different clients that look at different keys, or work in different databases, can be exchanged: if the
server executes them in one order, it executes them in the other order too, with the same replies and the same data at the end. -/
theorem C74_exchange {f1 f2 : Nat} {c1 c2 : Session} {e1 e2 : Env} {a1 a2 : List Bytes} {s1 s2 : Sys} {r1 r2 : List Bytes} (hs : Reach hash s)
    (he1 : e1.hash = hash) (he2 : e2.hash = hash) (hf : f1 ≠ f2) (hc1 : s.sess f1 = some c1) (hc2 : s.sess f2 = some c2) (hp1 : plain e1 a1) (hp2 : plain e2 a2)
    (hd : c1.db = c2.db → ∀ k, foot e1 a1 k → ¬ foot e2 a2 k)
    (h1 : Sys.step s (.request f1 e1 a1) = some (s1, r1)) (h2 : Sys.step s1 (.request f2 e2 a2) = some (s2, r2)) :
    ∃ t1 t2 r1' r2', Sys.step s (.request f2 e2 a2) = some (t1, r2') ∧ Sys.step t1 (.request f1 e1 a1) = some (t2, r1') ∧
      Like (.request f1 e1 a1) r1 r1' ∧ Like (.request f2 e2 a2) r2 r2' ∧
      (∀ i k, t2.val i k = s2.val i k ∧ t2.deadline i k = s2.deadline i k) ∧ ∀ x, t2.sess x = s2.sess x := by
  have ok1 : EvOk hash (.request f1 e1 a1) := he1
  have ok2 : EvOk hash (.request f2 e2 a2) := he2
  have g := hs.good
  have g1 := (step_db g ok1 h1).1
  have m1 : ∀ x, ((x == f1) = true) ↔ x = f1 := fun x => by simp
  have not1 : (zoneOf f1 c1.db e1 a1).mine (.request f2 e2 a2) = false := by simp [Zone.mine, zoneOf]; exact fun h => hf h.symm
  have not2 : (zoneOf f2 c2.db e2 a2).mine (.request f1 e1 a1) = false := by simp [Zone.mine, zoneOf]; exact hf
  have av1 : ∀ k, foot e1 a1 k → ¬ (zoneOf f2 c2.db e2 a2).keys c1.db k := fun k hk hz => hd hz.1 k hk hz.2
  have av2 : ∀ k, foot e2 a2 k → ¬ (zoneOf f1 c1.db e1 a1).keys c2.db k := fun k hk hz => hd hz.1.symm k hz.2 hk
  -- the first request does not concern the second
  have w1 := outside g (same_refl (z := zoneOf f2 c2.db e2 a2)) not2 ok1 (outside_any hc1 hp1 av1) h1
  have hc2' : s1.sess f2 = some c2 := by rw [← w1.sess f2 (by simp [zoneOf]), hc2]
  obtain ⟨t1, r2', b1, b2, b3⟩ := inside g1 g w1 (by simp [Zone.mine, zoneOf]) ok2 (inside_own hc2' hp2) h2
  rw [hashed_same ok2] at b1
  have gt := (step_db g ok2 b1).1
  have w2 := outside g (same_refl (z := zoneOf f1 c1.db e1 a1)) not1 ok2 (outside_any hc2 hp2 av2) b1
  have hc1' : t1.sess f1 = some c1 := by rw [← w2.sess f1 (by simp [zoneOf]), hc1]
  obtain ⟨t2, r1', d1, d2, d3⟩ := inside g gt (same_symm w2) (by simp [Zone.mine, zoneOf]) ok1 (inside_own hc1 hp1) h1
  rw [hashed_same ok1] at d1
  have w3 := outside g1 (same_refl (z := zoneOf f1 c1.db e1 a1)) not1 ok2 (outside_any hc2' hp2 av2) h2
  have w4 := outside gt (same_refl (z := zoneOf f2 c2.db e2 a2)) not2 ok1 (outside_any hc1' hp1 av1) d1
  -- the rest of the world
  let z : Zone := ⟨fun x => x != f1 && x != f2, fun i k => ¬ (zoneOf f1 c1.db e1 a1).keys i k ∧ ¬ (zoneOf f2 c2.db e2 a2).keys i k, False⟩
  have n1 : z.mine (.request f1 e1 a1) = false := by simp [Zone.mine, z]
  have n2 : z.mine (.request f2 e2 a2) = false := by simp [Zone.mine, z]
  have v1 : ∀ k, foot e1 a1 k → ¬ z.keys c1.db k := fun k hk hz => hz.1 ⟨rfl, hk⟩
  have v2 : ∀ k, foot e2 a2 k → ¬ z.keys c2.db k := fun k hk hz => hz.2 ⟨rfl, hk⟩
  have u1 := outside g1 (outside g (same_refl (z := z)) n1 ok1 (outside_any hc1 hp1 v1) h1) n2 ok2 (outside_any hc2' hp2 v2) h2
  have u2 := outside gt (outside g (same_refl (z := z)) n2 ok2 (outside_any hc2 hp2 v2) b1) n1 ok1 (outside_any hc1' hp1 v1) d1
  refine ⟨t1, t2, r1', r2', b1, d1, d2, b2, fun i k => ?_, fun x => ?_⟩
  · by_cases k1 : (zoneOf f1 c1.db e1 a1).keys i k
    · have p := d3.data i k k1
      have q := w3.data i k k1
      exact ⟨p.1.trans q.1, p.2.trans q.2⟩
    · by_cases k2 : (zoneOf f2 c2.db e2 a2).keys i k
      · have p := b3.data i k k2
        have q := w4.data i k k2
        exact ⟨q.1.symm.trans p.1, q.2.symm.trans p.2⟩
      · have p := u1.data i k ⟨k1, k2⟩
        have q := u2.data i k ⟨k1, k2⟩
        exact ⟨q.1.symm.trans p.1, q.2.symm.trans p.2⟩
  · by_cases k1 : x = f1
    · exact (d3.sess x (by simp [zoneOf, k1])).trans (w3.sess x (by simp [zoneOf, k1]))
    · by_cases k2 : x = f2
      · exact ((w4.sess x (by simp [zoneOf, k2])).symm.trans (b3.sess x (by simp [zoneOf, k2])))
      · exact ((u2.sess x (by simp [z, k1, k2])).symm.trans (u1.sess x (by simp [z, k1, k2])))

/-- Two clients in one database. -/
def both : List Event := [.connect 4, .connect 5, .request 4 (demo 0) [b!"sadd", b!"k", b!"a", b!"b"]]

example : (Sys.run (Sys.init 1 [] true) both).bind (fun p => (Sys.run p.1 [.request 4 (demo 0) [b!"smembers", b!"k"], .request 5 (demo 0) [b!"set", b!"x", b!"1"]]).map
      fun q => (q.2, p.1.sess 4, p.1.sess 5)) =
      some ([Reply.array [b!"a", b!"b"], Reply.ok], some ⟨0, false⟩, some ⟨0, false⟩) ∧
    (plain (demo 0) [b!"smembers", b!"k"] ∧ plain (demo 0) [b!"set", b!"x", b!"1"]) ∧
    ∀ k, foot (demo 0) [b!"smembers", b!"k"] k → ¬ foot (demo 0) [b!"set", b!"x", b!"1"] k := by
  refine ⟨by decide, ⟨by unfold plain; decide, by unfold plain; decide⟩, ?_⟩
  rintro k ⟨cmd, h1, h2⟩ ⟨cmd', h1', h2'⟩
  cases (show some Cmd.smembers = some cmd from h1)
  cases (show some Cmd.set = some cmd' from h1')
  rcases h2 with h2 | h2
  · rcases h2' with h2' | h2'
    · simp [keysOf] at h2 h2'
      subst h2; cases h2'
    · cases h2'
  · cases h2

/-- Without the condition the order matters. -/
example : (Sys.run (Sys.init 1 [] true) (both ++ [.request 4 (demo 0) [b!"srem", b!"k", b!"a"], .request 5 (demo 0) [b!"scard", b!"k"]])).map Prod.snd ≠
    (Sys.run (Sys.init 1 [] true) (both ++ [.request 5 (demo 0) [b!"scard", b!"k"], .request 4 (demo 0) [b!"srem", b!"k", b!"a"]])).map Prod.snd := by decide

/-! ### C75 -/

/-- The event involves no random choice. -/
def Fixed : Event → Prop
  | .request _ e args => commandOf e args ≠ some .spop ∧ commandOf e args ≠ some .randomget
  | .cron _ => False
  | _ => True

/-- Everything. -/
def all : Zone := ⟨fun _ => true, fun _ _ => True, True⟩

theorem held_all : ∀ (evs : List Event) (s : Sys), (∀ ev ∈ evs, Fixed ev) → Held Outside all s evs
  | [], _, _ => trivial
  | ev :: rest, s, h => by
    have h0 := h ev (by simp)
    refine ⟨?_, fun s' _ _ => held_all rest s' (fun x hx => h x (by simp [hx]))⟩
    cases ev with
    | connect => trivial
    | close => trivial
    | cron => exact h0.elim
    | request fd e args =>
      intro c cmd _ hcmd
      exact ⟨fun h => h0.1 (h ▸ hcmd), fun h => h0.2 (h ▸ hcmd), fun _ => trivial, fun _ _ => trivial, fun _ _ => trivial⟩

/-- **C75**: two servers that use different hash functions, one with and one without a log, tell their clients the same and hold the same data
after the same requests, as long as no random choice is involved. -/
theorem C75_hash {n : Nat} {pw : Bytes} {aof aof' : Bool} {evs : List Event} {rs : List (List Bytes)} (he : ∀ ev ∈ evs, EvOk hash ev)
    (hx : ∀ ev ∈ evs, Fixed ev) (h : Sys.run (Sys.init n pw aof) evs = some (s, rs)) :
    ∃ t rs', Sys.run (Sys.init n pw aof') (evs.map (Event.hashed hash')) = some (t, rs') ∧ Alike (evs.zip rs) rs' ∧
      ∀ i k, t.val i k = s.val i k ∧ t.deadline i k = s.deadline i k := by
  have hm : ∀ ev ∈ evs, all.mine ev = true := by
    intro ev hev
    cases ev <;> first | rfl | exact (hx _ hev).elim
  have w : Same all (Sys.init n pw aof) (Sys.init n pw aof') := ⟨rfl, rfl, fun _ _ => rfl, fun _ _ _ => ⟨rfl, rfl⟩, fun _ => rfl⟩
  obtain ⟨t, rs', h1, h2, h3⟩ := apart (hash' := hash') evs (init_good (hash := hash) n pw aof) (init_good n pw aof') w he (held_all _ _ hx) h
  rw [List.filter_eq_self.2 hm] at h1
  rw [List.filter_eq_self.2 (fun p hp => hm _ (List.of_mem_zip hp).1)] at h2
  exact ⟨t, rs', h1, h2, fun i k => h3.data i k trivial⟩

/-- Another hash function: the order of the members differs, the members do not. -/
example : ((Sys.run (Sys.init 1 [] true) (both ++ [Event.request 4 (demo 0) [b!"smembers", b!"k"]])).map Prod.snd,
      (Sys.run (Sys.init 1 [] true) ((both ++ [Event.request 4 (demo 0) [b!"smembers", b!"k"]]).map (Event.hashed (fun b => 3 - (b.map UInt8.toNat).sum % 4)))).map Prod.snd) =
    (some [[], [], [b!":2\r\n"], Reply.array [b!"a", b!"b"]], some [[], [], [b!":2\r\n"], Reply.array [b!"b", b!"a"]]) ∧
    (∀ ev ∈ both ++ [Event.request 4 (demo 0) [b!"smembers", b!"k"]], Fixed ev) := by
  refine ⟨by decide, ?_⟩
  intro ev hev
  simp only [both, List.cons_append, List.nil_append, List.mem_cons, List.not_mem_nil, or_false] at hev
  rcases hev with rfl | rfl | rfl | rfl
  · trivial
  · trivial
  · exact ⟨by decide, by decide⟩
  · exact ⟨by decide, by decide⟩

end Metis.Props.ApartP
