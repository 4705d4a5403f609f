import Verif.Nmdc.MyInfo
import Verif.Nmdc.SimpleLemmas
import Verif.Props.NmdcNumbers

/-!
# C29: `MyINFO`
-/

namespace Verif.Props.NmdcMyInfo

open Verif.Go Verif.Spec Verif.Nmdc

attribute [local instance] basicEntities

/-- Bytes that end a field of the tag, start it, or end a field of the message. -/
def TagText (s : Bytes) : Prop := c!"," ∉ s ∧ c!"<" ∉ s ∧ c!"$" ∉ s

instance (s : Bytes) : Decidable (TagText s) := by unfold TagText; infer_instance

/-- Keys that come back unchanged: not empty, without a colon, and a single character must be a capital or something below
that is not one of the four standard fields. -/
def ExtraKey (k : Bytes) : Prop :=
  k ≠ [] ∧ c!":" ∉ k ∧ TagText k ∧ ∀ c, k = [c] → c ≤ c!"Z" ∧ c ∉ b!"VMHS"

theorem join_cons (x : Bytes) (xs : List Bytes) (sep : Byte) : join (x :: xs) sep = x ++ xs.flatMap (fun y => sep :: y) := by
  induction xs generalizing x with
  | nil => simp [join]
  | cons y ys ih => rw [join_cons2, ih]; simp

/-- The fields of the tag. -/
def tagFieldsOf (m : MyINFO) (order : StrMap) : List Bytes :=
  (b!"V:" ++ m.client.version) :: (b!"M:" ++ [if m.mode ≠ 0 ∧ m.mode ≠ c!" " then m.mode else c!" "]) ::
    (b!"H:" ++ itoa m.hubsNormal ++ b!"/" ++ itoa m.hubsRegistered ++ b!"/" ++ itoa m.hubsOperator) ::
    (b!"S:" ++ itoa m.slots) :: order.map (fun e => e.1 ++ c!":" :: e.2)

theorem tag_eq (m : MyINFO) (order : StrMap) : m.tag order = m.client.name ++ c!" " :: join (tagFieldsOf m order) c!"," := by
  have : ∀ order : StrMap, order.flatMap (fun e => b!"," ++ e.1 ++ b!":" ++ e.2) =
      (order.map (fun e => e.1 ++ c!":" :: e.2)).flatMap (fun y => c!"," :: y) := by
    intro order
    induction order with
    | nil => rfl
    | cons e order ih => rw [List.flatMap_cons, ih]; simp
  unfold MyINFO.tag tagFieldsOf
  rw [join_cons, this]
  simp

theorem set_new {m : StrMap} {k v : Bytes} (h : k ∉ m.map (·.1)) : m.set k v = m ++ [(k, v)] := by
  unfold StrMap.set
  rw [if_neg]
  intro h'
  rw [List.any_eq_true] at h'
  obtain ⟨e, he, hk⟩ := h'
  exact h (List.mem_map.mpr ⟨e, he, of_decide_eq_true hk⟩)

theorem byteString_low {c : Byte} (h : c ≤ c!"Z") : byteString c = [c] := by
  revert c; apply forall_byte; decide +kernel

theorem upperKey_low {c : Byte} (h : c ≤ c!"Z") : upperKey c = c := by
  unfold upperKey
  rw [if_neg]
  revert c; apply forall_byte; decide +kernel

/-- One extra field. -/
theorem tagField_extra {client : Bytes} {m : MyINFO} {k v : Bytes} (hk : ExtraKey k) (hn : k ∉ m.extra.map (·.1)) :
    MyINFO.tagField false client m (k ++ c!":" :: v) = .ok (client, { m with extra := m.extra ++ [(k, v)] }) := by
  obtain ⟨h1, h2, -, h4⟩ := hk
  unfold MyINFO.tagField
  rw [if_neg (by simp), indexByte_append h2]
  have h0 : k.length ≠ 0 := by simpa using h1
  simp only [h0, if_false, sliceFrom_append', List.take_left, Res.ok_bind]
  match k, h4, hn with
  | [], _, _ => exact absurd rfl h1
  | [c], h4, hn =>
    obtain ⟨g1, g2⟩ := h4 c rfl
    simp only [List.mem_cons, List.not_mem_nil, or_false, not_or] at g2
    simp only [upperKey_low g1, MyINFO.letter, g2.1, g2.2.1, g2.2.2.1, g2.2.2.2, if_false, Res.ok_bind, byteString_low g1, set_new hn]
  | a :: b :: t, _, hn => simp only [set_new hn]

theorem tagFields_extra {client : Bytes} (order : StrMap) (m : MyINFO) (hk : ∀ e ∈ order, ExtraKey e.1)
    (hn : (m.extra ++ order).map (·.1) |>.Nodup) :
    MyINFO.tagFields false client m (order.map (fun e => e.1 ++ c!":" :: e.2)) = .ok (client, { m with extra := m.extra ++ order }) := by
  induction order generalizing m with
  | nil => simp [MyINFO.tagFields]
  | cons e order ih =>
    have h1 : e.1 ∉ m.extra.map (·.1) := by
      intro h
      rw [List.map_append, List.nodup_append] at hn
      exact hn.2.2 _ h _ (by simp) rfl
    rw [List.map_cons, MyINFO.tagFields, tagField_extra (hk e (by simp)) h1]
    simp only [Res.ok_bind]
    rw [ih _ (fun x hx => hk x (by simp [hx])) (by simpa using hn)]
    simp

theorem noslash (k : Int) : c!"/" ∉ itoa k := by
  intro hm
  rcases itoa_bytes hm with h | h
  · exact absurd h (by decide)
  · exact absurd h (by decide)

theorem hubs_ok {m : MyINFO} {a b c : Int} (ha : -(2 ^ 63 : Int) ≤ a ∧ a < 2 ^ 63) (hb : -(2 ^ 63 : Int) ≤ b ∧ b < 2 ^ 63)
    (hc : -(2 ^ 63 : Int) ≤ c ∧ c < 2 ^ 63) :
    m.hubs (itoa a ++ b!"/" ++ itoa b ++ b!"/" ++ itoa c) = .ok { m with hubsNormal := a, hubsRegistered := b, hubsOperator := c } := by
  have e : itoa a ++ b!"/" ++ itoa b ++ b!"/" ++ itoa c = join [itoa a, itoa b, itoa c] c!"/" := by
    rw [join_cons]; simp
  have hs : split (join [itoa a, itoa b, itoa c] c!"/") c!"/" = [itoa a, itoa b, itoa c] :=
    split_join (by simp) (by simp [noslash])
  have hcount : (join [itoa a, itoa b, itoa c] c!"/").count c!"/" = 2 := by
    rw [join_cons]
    simp [List.count_append, List.count_eq_zero_of_not_mem (noslash a),
      List.count_eq_zero_of_not_mem (noslash b), List.count_eq_zero_of_not_mem (noslash c)]
  rw [e]
  unfold MyINFO.hubs
  rw [if_neg (by rw [join_cons]; simp), if_neg, splitN, if_pos (by rw [hcount]), hs]
  · simp only [NmdcNumbers.int_roundtrip ha.1 ha.2, NmdcNumbers.int_roundtrip hb.1 hb.2, NmdcNumbers.int_roundtrip hc.1 hc.2,
      mapErr, Res.ok_bind]
  · rw [Option.isNone_iff_eq_none, indexByte_none, join_cons]
    simp

/-- A field with a one-letter key. -/
theorem tagField_letter {first : Bool} {client : Bytes} {m : MyINFO} {k : Byte} {v : Bytes} (hk : k ≠ c!":") :
    MyINFO.tagField first client m (k :: c!":" :: v) = (m.letter (upperKey k) v).bind (fun m => .ok (client, m)) := by
  unfold MyINFO.tagField
  have h2 : c!":" ∉ [k] := by simpa using Ne.symm hk
  have e : k :: c!":" :: v = [k] ++ c!":" :: v := rfl
  rw [if_neg (by simp), e, indexByte_append h2]
  simp only [sliceFrom_append', List.take_left, Res.ok_bind]
  rfl

theorem version_at {name b : Bytes} (h : ¬ b!" V:" <:+: name) : index (name ++ b!" V:" ++ b) b!" V:" = some name.length := by
  refine index_at (by simp) ?_
  rintro ⟨x, y, hxy⟩
  rcases List.eq_nil_or_concat y with rfl | ⟨y', z, rfl⟩
  · have := congrArg List.getLast? hxy
    simp at this
  · rw [List.concat_eq_append] at hxy
    have e : (x ++ b!" V:" ++ y') ++ [z] = (name ++ b!" ") ++ b!"V" := by simpa using hxy
    have e := (List.append_inj' e rfl).1
    rcases List.eq_nil_or_concat y' with rfl | ⟨y'', z', rfl⟩
    · have := congrArg List.getLast? e
      simp at this
    · rw [List.concat_eq_append] at e
      have e : (x ++ b!" V:" ++ y'') ++ [z'] = name ++ b!" " := by simpa using e
      exact h ⟨x, y'', (List.append_inj' e rfl).1⟩

/-- C29. The normal form of a user description: an unknown mode is written, and read, as a blank, and flag 0 as 1. -/
def normal (m : MyINFO) : MyINFO :=
  { m with mode := if m.mode = 0 then c!" " else m.mode, flag := if m.flag = 0 then 1 else m.flag }

/-- C29: whatever order the map of extra fields is iterated in, the message comes back in normal form; the decoded map is
filled in that order. -/
theorem myInfo_roundtrip [HtmlEntities] {enc dec : Codec} (hl : Lossless enc dec) {m m0 : MyINFO} {order : StrMap} {w : Bytes}
    (horder : order.Perm m.extra)
    (hname : NameOk enc m.name ∧ ∀ n, Name.marshal enc m.name = .ok n → c!" " ∉ n)
    (hdesc : TextOk enc m.desc) (hconn : TextOk enc m.conn) (hmail : TextOk enc m.email)
    (hcl : c!"<" ∉ m.client.name ∧ c!"$" ∉ m.client.name ∧ ¬ b!" V:" <:+: m.client.name) (hver : TagText m.client.version)
    (hmode : TagText [m.mode]) (hflag : m.flag ≠ c!"$")
    (hnum : ∀ k ∈ [m.hubsNormal, m.hubsRegistered, m.hubsOperator, m.slots], -(2 ^ 63 : Int) ≤ k ∧ k < 2 ^ 63)
    (hkeys : (m.extra.map (·.1)).Nodup) (hextra : ∀ e ∈ m.extra, ExtraKey e.1 ∧ TagText e.2)
    (hsize : m.shareSize < 2 ^ 64) (h : m.marshal enc order = .ok w) :
    MyINFO.unmarshal dec m0 w = .ok { normal m with extra := order } := by
  have hx : ∀ e ∈ order, ExtraKey e.1 ∧ TagText e.2 := fun e he => hextra e (horder.mem_iff.mp he)
  have hnd : (order.map (·.1)).Nodup := (horder.map (·.1)).nodup_iff.mpr hkeys
  simp only [List.mem_cons, List.not_mem_nil, or_false, forall_eq_or_imp, forall_eq] at hnum
  obtain ⟨k1, k2, k3, k4⟩ := hnum
  simp only [MyINFO.marshal, Res.bind_eq_ok, Res.pure_eq, Res.ok.injEq] at h
  obtain ⟨n, hn, d, hd, c, hc, e, he, rfl⟩ := h
  generalize hfl : (if m.flag = 0 then 1 else m.flag) = fl
  have hfl' : fl ≠ c!"$" := by
    rw [← hfl]; split
    · decide
    · exact hflag
  generalize hmd : (if m.mode ≠ 0 ∧ m.mode ≠ c!" " then m.mode else c!" ") = md at *
  have hmd' : md = if m.mode = 0 then c!" " else m.mode := by
    rw [← hmd]
    by_cases h0 : m.mode = 0
    · simp [h0]
    · by_cases h1 : m.mode = c!" "
      · simp [h1]
      · simp [h0, h1]
  have hmdt : TagText [md] := by
    rw [hmd']
    split
    · decide
    · exact hmode
  have inot : ∀ (k : Int) (c : Byte), ¬ IsDigit c → c ≠ c!"-" → c ∉ itoa k := by
    intro k c h1 h2 hm
    rcases itoa_bytes hm with h | h
    · exact h1 h
    · exact h2 h
  have itag : ∀ k : Int, TagText (itoa k) :=
    fun k => ⟨inot k _ (by decide) (by decide), inot k _ (by decide) (by decide), inot k _ (by decide) (by decide)⟩
  have tapp : ∀ {a b : Bytes}, TagText a → TagText b → TagText (a ++ b) := by
    intro a b ha hb
    simp only [TagText, List.mem_append, not_or]
    exact ⟨⟨ha.1, hb.1⟩, ⟨ha.2.1, hb.2.1⟩, ⟨ha.2.2, hb.2.2⟩⟩
  -- every field of the tag is clean
  have hfields : ∀ f ∈ tagFieldsOf m order, TagText f := by
    intro f hf
    simp only [tagFieldsOf, hmd, List.mem_cons, List.mem_map] at hf
    rcases hf with rfl | rfl | rfl | rfl | ⟨x, hx', rfl⟩
    · exact tapp (by decide) hver
    · exact tapp (by decide) hmdt
    · exact tapp (tapp (tapp (tapp (tapp (by decide) (itag _)) (by decide)) (itag _)) (by decide)) (itag _)
    · exact tapp (by decide) (itag _)
    · exact tapp (hx x hx').1.2.2.1 (tapp (a := b!":") (by decide) (hx x hx').2)
  have hjoin : ∀ {b : Byte}, b ≠ c!"," → (∀ f ∈ tagFieldsOf m order, b ∉ f) → b ∉ join (tagFieldsOf m order) c!"," := by
    intro b hb hf
    have : ∀ ps : List Bytes, (∀ f ∈ ps, b ∉ f) → b ∉ ps.flatMap (fun y => c!"," :: y) := by
      intro ps hps hm
      simp only [List.mem_flatMap, List.mem_cons] at hm
      obtain ⟨y, hy, h1 | h1⟩ := hm
      · exact hb h1
      · exact hps y hy h1
    unfold tagFieldsOf at hf ⊢
    rw [join_cons]
    intro hm
    rcases List.mem_append.mp hm with h1 | h1
    · exact hf _ (by simp) h1
    · exact this _ (fun f h2 => hf f (List.mem_cons_of_mem _ h2)) h1
  have htag : c!"<" ∉ m.tag order ∧ c!"$" ∉ m.tag order := by
    rw [tag_eq]
    have h1 := hjoin (b := c!"<") (by decide) (fun f hf => (hfields f hf).2.1)
    have h2 := hjoin (b := c!"$") (by decide) (fun f hf => (hfields f hf).2.2)
    simp only [List.mem_append, List.mem_cons, not_or]
    exact ⟨⟨hcl.1, by decide, h1⟩, ⟨hcl.2.1, by decide, h2⟩⟩
  -- the tag is read back
  have hread : ∀ m1 : MyINFO, m1.unmarshalTag (m.tag order) =
      .ok { m1 with client := m.client, mode := md, hubsNormal := m.hubsNormal, hubsRegistered := m.hubsRegistered,
                    hubsOperator := m.hubsOperator, slots := m.slots, extra := order } := by
    intro m1
    unfold MyINFO.unmarshalTag
    have hv : tagVersion (m.tag order) = some m.client.name.length := by
      have e : m.tag order = m.client.name ++ b!" V:" ++ (m.tag order).drop (m.client.name.length + 3) := by
        have : m.tag order = (m.client.name ++ b!" V:") ++ (m.client.version ++ b!",M:" ++
          [if m.mode ≠ 0 ∧ m.mode ≠ c!" " then m.mode else c!" "] ++
          b!",H:" ++ itoa m.hubsNormal ++ b!"/" ++ itoa m.hubsRegistered ++ b!"/" ++ itoa m.hubsOperator ++
          b!",S:" ++ itoa m.slots ++ order.flatMap (fun e => b!"," ++ e.1 ++ b!":" ++ e.2)) := by simp [MyINFO.tag]
        have hlen : m.client.name.length + 3 = (m.client.name ++ b!" V:").length := by simp
        rw [this, hlen, List.drop_left]
      unfold tagVersion
      rw [e, version_at hcl.2.2]
    rw [hv, tag_eq]
    simp only [sliceFrom_append', List.take_left, Res.ok_bind, Res.pure_eq]
    rw [split_join (by simp [tagFieldsOf]) (fun f hf => (hfields f hf).1)]
    unfold tagFieldsOf
    rw [hmd]
    simp only [MyINFO.tagFields, List.cons_append, List.nil_append]
    rw [tagField_letter (by decide)]
    have u1 : upperKey c!"V" = c!"V" := by decide
    have u2 : upperKey c!"M" = c!"M" := by decide
    have u3 : upperKey c!"H" = c!"H" := by decide
    have u4 : upperKey c!"S" = c!"S" := by decide
    rw [u1]
    have l1 : ∀ (x : MyINFO) (v : Bytes), x.letter c!"V" v = .ok { x with client := { x.client with version := v } } := fun _ _ => rfl
    have l2 : ∀ (x : MyINFO) (v : Byte), x.letter c!"M" [v] = .ok { x with mode := v } := fun _ _ => rfl
    have l3 : ∀ (x : MyINFO) (v : Bytes), x.letter c!"H" v = x.hubs v := fun _ _ => rfl
    have l4 : ∀ (x : MyINFO), x.letter c!"S" (itoa m.slots) = .ok { x with slots := m.slots } := by
      intro x
      have : x.letter c!"S" (itoa m.slots) = (do
        let a ← mapErr (atoiTrim (itoa m.slots)) (.other 84)
        .ok { x with slots := a }) := rfl
      rw [this, NmdcNumbers.int_roundtrip k4.1 k4.2]
      rfl
    rw [l1]
    simp only [Res.bind, Res.ok_bind]
    rw [tagField_letter (by decide), u2, l2]
    simp only [Res.bind, Res.ok_bind]
    rw [tagField_letter (by decide), u3, l3]
    have h3 := fun (x : MyINFO) => hubs_ok (m := x) k1 k2 k3
    simp only [List.append_assoc, List.cons_append, List.nil_append] at h3
    simp only [List.append_assoc, List.cons_append, List.nil_append]
    rw [h3]
    simp only [Res.bind, Res.ok_bind]
    rw [tagField_letter (by decide), u4, l4]
    simp only [Res.bind, Res.ok_bind]
    rw [tagFields_extra order _ (fun e he => (hx e he).1) (by simpa using hnd)]
    simp
  -- the fields of the message
  have hdd : c!"$" ∉ d := fun h0 => (str_marshal_clean hd _ h0).1 rfl
  have hcc : c!"$" ∉ c := fun h0 => (str_marshal_clean hc _ h0).1 rfl
  have hee : c!"$" ∉ e := fun h0 => (str_marshal_clean he _ h0).1 rfl
  have ew : b!"$ALL " ++ n ++ b!" " ++ d ++ b!"<" ++ m.tag order ++ b!">$ $" ++ c ++ [fl] ++ b!"$" ++ e ++ b!"$" ++
      utoa m.shareSize ++ b!"$" =
      b!"$ALL " ++ (n ++ c!" " :: join [d ++ c!"<" :: (m.tag order ++ b!">"), b!" ", c ++ [fl], e, utoa m.shareSize, []] c!"$") := by
    rw [join_cons]; simp
  have hsplit : split (join [d ++ c!"<" :: (m.tag order ++ b!">"), b!" ", c ++ [fl], e, utoa m.shareSize, []] c!"$") c!"$" =
      [d ++ c!"<" :: (m.tag order ++ b!">"), b!" ", c ++ [fl], e, utoa m.shareSize, []] := by
    apply split_join (by simp)
    have := htag.2
    simp only [List.mem_cons, List.not_mem_nil, or_false, forall_eq_or_imp, forall_eq, List.mem_append, not_or]
    exact ⟨⟨hdd, by decide, this, by decide⟩, by decide, ⟨hcc, Ne.symm hfl'⟩, hee, utoa_no (by decide), by simp⟩
  rw [ew]
  unfold MyINFO.unmarshal
  rw [if_pos (by rw [hasPrefix_iff]; exact List.prefix_append _ _)]
  have h5 := sliceFrom_append b!"$ALL " (n ++ c!" " :: join [d ++ c!"<" :: (m.tag order ++ b!">"), b!" ", c ++ [fl], e, utoa m.shareSize, []] c!"$")
  rw [show ([36, 65, 76, 76, 32] : Bytes).length = 5 from rfl] at h5
  rw [h5]
  simp only [Res.ok_bind]
  rw [indexByte_append (hname.2 n hn)]
  simp only [sliceFrom_append', List.take_left, Res.ok_bind, name_roundtrip hl hname.1 hn, hsplit]
  unfold MyINFO.fields
  have hdesc' : ∀ m1 : MyINFO, m1.descField (d ++ c!"<" :: (m.tag order ++ b!">")) =
      .ok (d, { m1 with client := m.client, mode := md, hubsNormal := m.hubsNormal, hubsRegistered := m.hubsRegistered,
                        hubsOperator := m.hubsOperator, slots := m.slots, extra := order }, true) := by
    intro m1
    unfold MyINFO.descField
    have : c!"<" ∉ m.tag order ++ b!">" := by
      simp only [List.mem_append, not_or]
      exact ⟨htag.1, by decide⟩
    rw [lastIndexByte_append this]
    simp only [sliceFrom_append', List.take_left, Res.ok_bind]
    rw [if_neg (by simp), if_pos (by simp), List.dropLast_concat, hread]
    simp
  rw [hdesc']
  simp only [Res.ok_bind, str_roundtrip hl hdesc hd, if_true]
  unfold MyINFO.connField
  simp only [List.getLast?_append, List.getLast?_singleton, Option.some_or, List.dropLast_concat, str_roundtrip hl hconn hc,
    str_roundtrip hl hmail he, Res.ok_bind]
  unfold MyINFO.sizeField
  rw [if_pos (by simpa using utoa_ne_nil _), NmdcNumbers.number_roundtrip hsize]
  simp only [normal, hmd', hfl]

/-- A description with a `<`, two extra fields and every number negative or large. -/
example : ∃ w, MyINFO.marshal none [(b!"L", b!"10"), (b!"Ext", b!"a:b>")]
      { name := b!"joe", desc := b!"<a & b|", client := ⟨b!"++", b!"0.7"⟩, hubsNormal := -1, slots := 3, conn := b!"100",
        extra := [(b!"Ext", b!"a:b>"), (b!"L", b!"10")], email := b!"a$b", shareSize := 18446744073709551615 } = .ok w ∧
    MyINFO.unmarshal none {} w = .ok
      { name := b!"joe", desc := b!"<a & b|", client := ⟨b!"++", b!"0.7"⟩, mode := c!" ", hubsNormal := -1, slots := 3, conn := b!"100",
        extra := [(b!"L", b!"10"), (b!"Ext", b!"a:b>")], flag := 1, email := b!"a$b", shareSize := 18446744073709551615 } := by
  refine ⟨_, rfl, myInfo_roundtrip
    (m := { name := b!"joe", desc := b!"<a & b|", client := ⟨b!"++", b!"0.7"⟩, hubsNormal := -1, slots := 3, conn := b!"100",
            extra := [(b!"Ext", b!"a:b>"), (b!"L", b!"10")], email := b!"a$b", shareSize := 18446744073709551615 })
    lossless_nil (List.Perm.swap _ _ _) ⟨nameOk_of (by decide +kernel), by intro n hn; cases hn; decide⟩
    (textOk_of (by decide +kernel)) (textOk_of (by decide +kernel)) (textOk_of (by decide +kernel))
    (by decide) (by decide) (by decide) (by decide) (by decide) (by decide) ?_ (by decide) rfl⟩
  intro e he
  simp only [List.mem_cons, List.not_mem_nil, or_false] at he
  rcases he with rfl | rfl
  · exact ⟨⟨by decide, by decide, by decide, by simp⟩, by decide⟩
  · exact ⟨⟨by decide, by decide, by decide, by rintro c hc; simp at hc; subst hc; decide⟩, by decide⟩

/-- Whatever the order of iteration, the decoded maps are the same. -/
theorem decoded_map_order {a b : StrMap} (hp : a.Perm b) (hk : (a.map (·.1)).Nodup) (k : Bytes) : a.get k = b.get k := by
  have uniq : ∀ {l : StrMap}, (l.map (·.1)).Nodup → ∀ v, l.get k = some v ↔ (k, v) ∈ l := by
    intro l hl v
    unfold StrMap.get
    induction l with
    | nil => simp
    | cons e l ih =>
      simp only [List.map_cons, List.nodup_cons] at hl
      rw [List.find?_cons]
      by_cases h : e.1 = k
      · simp only [h, decide_true, Option.map_some, Option.some.injEq, List.mem_cons]
        constructor
        · rintro rfl; left; rw [← h]
        · rintro (h' | h')
          · rw [← h']
          · exact absurd (List.mem_map.mpr ⟨_, h', rfl⟩) (h ▸ hl.1)
      · simp only [h, decide_false, List.mem_cons]
        rw [ih hl.2]
        constructor
        · exact .inr
        · rintro (h' | h')
          · exact absurd (by rw [← h']) h
          · exact h'
  have hk' : (b.map (·.1)).Nodup := (hp.map (·.1)).nodup_iff.mp hk
  apply Option.ext
  intro v
  rw [uniq hk, uniq hk']
  exact hp.mem_iff

example : StrMap.get [(b!"a", b!"1"), (b!"b", b!"2")] b!"a" = StrMap.get [(b!"b", b!"2"), (b!"a", b!"1")] b!"a" :=
  decoded_map_order (List.Perm.swap _ _ _) (by decide) _

/-! ### Findings -/

/-- A flag byte `$` makes the message unreadable. -/
theorem flag_dollar_refused : ∃ w, MyINFO.marshal none [] { name := b!"joe", flag := c!"$" } = .ok w ∧
    MyINFO.unmarshal none {} w = .err (.other 89) := ⟨_, rfl, by decide +kernel⟩

/-- A flag byte `|` ends the line early. -/
theorem flag_bar_written : ∃ w, MyINFO.marshal none [] { name := b!"joe", flag := c!"|" } = .ok w ∧ c!"|" ∈ w :=
  ⟨_, rfl, by decide +kernel⟩

/-- One-letter keys are written as they are and read as capitals; a standard letter overwrites the standard field. -/
theorem extra_key_changed :
    ∃ w, MyINFO.marshal none [(b!"x", b!"1"), (b!"s", b!"7")] { name := b!"joe", slots := 2, extra := [(b!"x", b!"1"), (b!"s", b!"7")] } = .ok w ∧
      MyINFO.unmarshal none {} w = .ok { name := b!"joe", mode := c!" ", slots := 7, flag := 1, extra := [(b!"X", b!"1")] } :=
  ⟨_, rfl, by decide +kernel⟩

/-- A share size that is not a number is read as 0, without an error. -/
theorem bad_size_is_zero : MyINFO.unmarshal none { shareSize := 5 } b!"$ALL joe desc$ $$$oops$" =
    .ok { name := b!"joe", desc := b!"desc", flag := 1, shareSize := 0 } := by decide +kernel

/-- Without a tag, what the receiver held before stays: client, counts and extra fields. -/
theorem stale_without_tag : MyINFO.unmarshal none { slots := 5, extra := [(b!"L", b!"1")] } b!"$ALL joe desc$ $$$1$" =
    .ok { name := b!"joe", desc := b!"desc", flag := 1, shareSize := 1, slots := 5, extra := [(b!"L", b!"1")] } := by decide +kernel

end Verif.Props.NmdcMyInfo
