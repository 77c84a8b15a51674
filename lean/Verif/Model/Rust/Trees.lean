import Verif.Model.Pbrs.Emit
import Verif.Model.Rust.Syntax
/-!
# The generated code as syntax trees

For the functions of `pb-rs/src/types.rs` that print the bodies of `get_size`, `write_message`, `from_reader` and `default`, the
syntax trees of what they print. That the trees are those of the printed text is proved in `Verif/Proofs/Trees.lean`
(`C77_*`); so nothing about them has to be believed.

A tree is `none` where pb-rs prints no well-formed text (maps in places where they cannot be, unresolved names).
-/

namespace QP.Rust
open QP.Pbrs

/-- Field of `self`. -/
def selfDot (name : Str) : Expr := .field (.var .self) name

/-- One argument. -/
def Exprs.one (e : Expr) : Exprs := .cons e .nil

/-- A list of arguments. -/
def Exprs.of : List Expr → Exprs
  | [] => .nil
  | e :: es => .cons e (of es)

/-- `a + b + c`. -/
def sum (a : Expr) (es : List Expr) : Expr := es.foldl (.bin .add false) a

/-- types.rs 1244-1252, the modules of a path. -/
def modulePath (D : FileDescriptor) (module : Str) (imported : Bool) : Path :=
  ((splitDot module).filter (fun p => !p.isEmpty)).drop (if D.package.isEmpty && !imported then 1 else 0)

/-- The path of a message. -/
def messagePath (D : FileDescriptor) (m : Message) : Path := modulePath D m.module m.imported ++ [m.name]
/-- The path of an enum. -/
def enumPath (D : FileDescriptor) (e : Enumerator) : Path := modulePath D e.module e.imported ++ [e.name]
/-- The path of the enum of a oneof. -/
def oneofPath (D : FileDescriptor) (o : OneOf) : Path := modulePath D o.module o.imported ++ [c! "OneOf" ++ o.name]

/-- types.rs 380-413, `rust_type`. -/
def tyOf (D : FileDescriptor) (cfg : Config) : FieldType → Option Ty
  | .int32 | .sint32 | .sfixed32 => some .i32
  | .int64 | .sint64 | .sfixed64 => some .i64
  | .uint32 | .fixed32 => some .u32
  | .uint64 | .fixed64 => some .u64
  | .double => some .f64
  | .float => some .f32
  | .stringCow => some .cowStr
  | .bytesCow => some .cowBytes
  | .string_ => some .string
  | .bytes_ => some .vecU8
  | .bool => some .bool
  | .enum e => (D.getEnum e).map fun en => .adt (enumPath D en) false
  | .message i => (D.getMessage i).bind fun m => (Pbrs.hasLifetime D cfg [] i).map fun l => .adt (messagePath D m) l
  | .map k v => (tyOf D cfg k).bind fun k => (tyOf D cfg v).map fun v => .kvmap k v
  | .messageOrEnum _ => none

/-- types.rs 812-837, `get_type`. -/
def fieldTy (D : FileDescriptor) (cfg : Config) (f : Field) : Option Ty :=
  (tyOf D cfg f.typ).map fun t =>
    if f.boxed then .option (.box t)
    else match f.frequency.generated with
      | .singular => if f.frequency.isOptional then .option t else t
      | .arrayLike => if f.isPacked && f.typ.isFixedSize && !cfg.dontUseCow then .packed t else .vec t
      | .map => t

/-- types.rs 315-344, `singular_field_defaults`. -/
def singularDefault (D : FileDescriptor) : FieldType → Option Expr
  | .int32 | .sint32 | .sfixed32 => some (.typed 0 .i32)
  | .int64 | .sint64 | .sfixed64 => some (.typed 0 .i64)
  | .uint32 | .fixed32 => some (.typed 0 .u32)
  | .uint64 | .fixed64 => some (.typed 0 .u64)
  | .bool => some .false_
  | .float => some (.typed 0 .f32)
  | .double => some (.typed 0 .f64)
  | .stringCow => some (.call .cowBorrowed [] (.one .emptyStr))
  | .string_ => some (.mcall .emptyStr .toString_ none [] .nil)
  | .bytesCow => some (.call .cowBorrowed [] (.one .emptyBytes))
  | .bytes_ => some (.call .vecU8New [] .nil)
  | .enum e => (D.getEnum e).bind fun en => en.fullyQualified.head?.map fun s => .verbatim (.adt (enumPath D en) false) s
  | .message m => (D.getMessage m).map fun m => .call (.default (messagePath D m)) [] .nil
  | _ => none

/-- types.rs 718-771, `get_field_default`. -/
def defaultTree (D : FileDescriptor) (cfg : Config) (f : Field) : Option Expr :=
  match f.frequency.generated with
  | .singular =>
    if f.boxed then (tyOf D cfg f.typ).map fun t => .none_ (.box t.erase)
    else if f.frequency.isOptional then (tyOf D cfg f.typ).map fun t => .none_ t.erase
    else match f.default with
      | some d =>
        match f.typ with
        | .string_ => some (.mcall (.verbatim (.ref .str) d) .toString_ none [] .nil)
        | .bytes_ => some (.mcall (.verbatim (.ref .slice) d) .toVec none [] .nil)
        | t => (tyOf D cfg t).map fun t => .verbatim t.erase d
      | none => singularDefault D f.typ
  | .arrayLike =>
    (tyOf D cfg f.typ).map fun t =>
      if f.isPacked && f.typ.isFixedSize && !cfg.dontUseCow then
        .call .packedFrom [t.erase] (.one (.call .vecNew [t.erase] .nil))
      else .call .vecNew [t.erase] .nil
  | .map => (tyOf D cfg f.typ).map fun t => .call .hashMapNew [t.erase] .nil

/-- The kind of a type, for the names of methods. -/
def kindOf : FieldType → Option Kind
  | .int32 => some .int32
  | .int64 => some .int64
  | .uint32 => some .uint32
  | .uint64 => some .uint64
  | .sint32 => some .sint32
  | .sint64 => some .sint64
  | .bool => some .bool
  | .enum _ => some .enum
  | .fixed64 => some .fixed64
  | .sfixed64 => some .sfixed64
  | .double => some .double
  | .fixed32 => some .fixed32
  | .sfixed32 => some .sfixed32
  | .float => some .float
  | .stringCow | .string_ => some .string
  | .bytesCow | .bytes_ => some .bytes
  | .message _ => some .message
  | .map _ _ | .messageOrEnum _ => none

/-- `r.read_kind(bytes)`. -/
def readCall (k : Kind) (tf : Option Ty) (inferred : List Ty) : Expr :=
  .mcall (.var .r) (.read k) tf inferred (.one (.var .bytes))

/-- types.rs 416-449, `read_fn`. -/
def readTree (D : FileDescriptor) : FieldType → Option Expr
  | .message i => (D.getMessage i).map fun m => .try_ (readCall .message (some (.adt (messagePath D m) false)) [])
  | .map _ _ | .messageOrEnum _ => none
  | .stringCow => some (.try_ (.mcall (readCall .string none []) .map none [] (.one (.fnName .cowBorrowed))))
  | .bytesCow => some (.try_ (.mcall (readCall .bytes none []) .map none [] (.one (.fnName .cowBorrowed))))
  | .string_ => some (.mcall (.try_ (readCall .string none [])) .toOwned none [] .nil)
  | .bytes_ => some (.mcall (.try_ (readCall .bytes none [])) .toOwned none [] .nil)
  | .enum e => (D.getEnum e).map fun en => .try_ (readCall .enum none [.adt (enumPath D en) false])
  | t => (kindOf t).map fun k => .try_ (readCall k none [])

/-- `|r, bytes| Ok(e)`. -/
def readClosure (e : Expr) : Expr := .closure [.var .r, .var .bytes] (.call .ok [] (.one e))

/-- types.rs 869-935, what `write_match_tag` writes after the tag. -/
def matchTree (D : FileDescriptor) (cfg : Config) (f : Field) : Option ArmBody :=
  if f.boxed then
    match f.typ with
    | .message _ =>
      if f.frequency.isMap then none
      else (readTree D f.typ).map fun e => .simple (.assign .msg f.name (.call .some [] (.one (.call .boxNew [] (.one e)))))
    | _ => none
  else match f.frequency.generated with
    | .singular =>
      (readTree D f.typ).map fun e =>
        if f.frequency.isOptional then .simple (.assign .msg f.name (.call .some [] (.one e)))
        else .simple (.assign .msg f.name e)
    | .arrayLike =>
      (tyOf D cfg f.typ).bind fun t =>
        (readTree D f.typ).map fun e =>
          if f.isPacked then
            if f.typ.isFixedSize then
              .simple (.assign .msg f.name (.try_ (.mcall (.var .r) .readPackedFixed none [t.erase] (.one (.var .bytes)))))
            else
              .simple (.assign .msg f.name
                (.try_ (.mcall (.var .r) .readPacked none [t.erase] (.cons (.var .bytes) (.one (readClosure e))))))
          else .simple (.push .msg f.name e)
    | .map =>
      match f.typ with
      | .map k v =>
        (tyOf D cfg k).bind fun kt => (tyOf D cfg v).bind fun vt =>
          (readTree D k).bind fun ke => (readTree D v).map fun ve =>
            .insert (.try_ (.mcall (.var .r) .readMap none [kt.erase, vt.erase]
              (.cons (.var .bytes) (.cons (readClosure ke) (.one (readClosure ve)))))) .msg f.name
      | _ => none

/-- types.rs 451-476, `get_size`, except for maps. -/
def sizeTree : FieldType → Expr → Option Expr
  | .int32, s | .int64, s | .uint32, s | .uint64, s | .bool, s | .enum _, s =>
    some (.call .sizeofVarint [] (.one (.cast (.deref (.paren (.ref s))) .u64)))
  | .sint32, s => some (.call .sizeofSint32 [] (.one (.deref (.paren (.ref s)))))
  | .sint64, s => some (.call .sizeofSint64 [] (.one (.deref (.paren (.ref s)))))
  | .fixed64, _ | .sfixed64, _ | .double, _ => some (.num 8)
  | .fixed32, _ | .sfixed32, _ | .float, _ => some (.num 4)
  | .stringCow, s | .bytesCow, s => some (.call .sizeofLen [] (.one (.mcall (.paren (.ref s)) .len none [] .nil)))
  | .string_, s | .bytes_, s => some (.call .sizeofLen [] (.one (.mcall s .len none [] .nil)))
  | .message _, s => some (.call .sizeofLen [] (.one (.mcall (.paren s) .getSize none [] .nil)))
  | .map _ _, _ | .messageOrEnum _, _ => none

/-- types.rs 464-468, the size of a map entry. -/
def entrySizeTree (k v : FieldType) : Option Expr :=
  (sizeTree k (.var .k)).bind fun ks => (sizeTree v (.var .v)).map fun vs => sum (.num 2) [ks, vs]

/-- The pattern `&x` or `x`. -/
def patAmp (amp : Bool) (x : Var) : Pat := if amp then .deref x else .var x

/-- `e.iter().map(|p| b).sum::<usize>()`. -/
def sumOver (e : Expr) (p : Pat) (b : Expr) : Expr :=
  .mcall (.mcall (.mcall e .iter none [] .nil) .map none [] (.one (.closure [p] b))) .sum (some .usize) [] .nil

/-- types.rs 948-1047, what `write_get_size` writes after the plus sign: the summands. -/
def sizeTerms (D : FileDescriptor) (cfg : Config) (f : Field) : Option (List Expr) :=
  let tagSize := Expr.num (sizeofVarint f.tag)
  let self := selfDot f.name
  match f.frequency.generated with
  | .singular =>
    (defaultTree D cfg f).bind fun d =>
      (sizeTree f.typ (.var .m)).bind fun ms => (sizeTree f.typ self).bind fun ss =>
        match f.hasPresence, f.frequency.isOptional with
        | false, true => none
        | false, false => some [.ite (.bin .eq false self d) (.num 0) (sum tagSize [ss])]
        | true, true => some [.mcall (.mcall self .asRef none [] .nil) .mapOr none [] (.cons (.num 0)
            (.one (.closure [patAmp (!(f.boxed || !f.typ.isPrimitive)) .m] (sum tagSize [ms]))))]
        | true, false => some [tagSize, ss]
  | .arrayLike =>
    if f.isPacked then
      let body : Option Expr := match f.typ.wireTypeNumNonPacked with
        | 1 => some (.bin .mul false (.mcall self .len none [] .nil) (.num 8))
        | 5 => some (.bin .mul false (.mcall self .len none [] .nil) (.num 4))
        | _ => (sizeTree f.typ (.var .s)).map fun s => sumOver self (.deref .s) s
      body.map fun b =>
        [.ite (.mcall self .isEmpty none [] .nil) (.num 0) (sum tagSize [.call .sizeofLen [] (.one b)])]
    else
      match f.typ.wireTypeNumNonPacked with
      | 1 => some [.bin .mul false (.paren (sum tagSize [.num 8])) (.mcall self .len none [] .nil)]
      | 5 => some [.bin .mul false (.paren (sum tagSize [.num 4])) (.mcall self .len none [] .nil)]
      | _ => (sizeTree f.typ (.var .s)).map fun s =>
          [sumOver self (patAmp f.typ.needToDereference .s) (sum tagSize [s])]
  | .map =>
    match f.typ with
    | .map k v => (entrySizeTree k v).map fun e =>
        [sumOver self (.pair (patAmp k.needToDereference .k) (patAmp v.needToDereference .v))
          (sum tagSize [.call .sizeofLen [] (.one e)])]
    | _ => none

/-- Further summands of the size, on a new line. -/
def addTerms (a : Expr) : List Expr → Expr
  | [] => a
  | e :: es => sum (.bin .add true a e) es

/-- types.rs 478-514, `get_write` after `w.`, except for maps. -/
def writeTree : FieldType → Expr → Bool → Option Expr
  | .enum _, s, _ => some (.mcall (.var .w) (.write .enum) none [] (.one (.cast (.deref (.ref s)) .i32)))
  | .stringCow, s, _ | .string_, s, _ => some (.mcall (.var .w) (.write .string) none [] (.one s))
  | .bytesCow, s, _ | .bytes_, s, _ => some (.mcall (.var .w) (.write .bytes) none [] (.one s))
  | .message _, s, true => some (.mcall (.var .w) (.write .message) none [] (.one (.ref (.deref (.paren s)))))
  | .message _, s, false => some (.mcall (.var .w) (.write .message) none [] (.one s))
  | t, s, _ => (kindOf t).map fun k => .mcall (.var .w) (.write k) none [] (.one (.deref (.ref s)))

/-- `|w| e`. -/
def writeClosure (e : Expr) : Expr := .closure [.var .w] e

/-- `w.write_with_tag(tag, |w| e)`. -/
def withTag (tag : BitVec 32) (e : Expr) : Expr :=
  .mcall (.var .w) .writeWithTag none [] (.cons (.num tag.toNat) (.one (writeClosure e)))

/-- types.rs 506-512, `w.write_map(..)`. -/
def writeMapTree (k v : FieldType) : Option Expr :=
  (entrySizeTree k v).bind fun size =>
    (writeTree k (.var .k) false).bind fun kw => (writeTree v (.var .v) false).map fun vw =>
      .mcall (.var .w) .writeMap none [] (.cons size (.cons (.num (tag 1 k false).toNat) (.cons (writeClosure kw)
        (.cons (.num (tag 2 v false).toNat) (.one (writeClosure vw))))))

/-- types.rs 1117-1153, `apply_unwrapping_code`. -/
def unwrapTree (f : Field) (equatingCows : Bool) (s : Expr) : Expr :=
  let core := if f.boxed then .deref (.paren s) else s
  let core := if !f.typ.needToDereference && !f.typ.isCow && !f.frequency.isOptional && !f.typ.isNonCow then .ref core else core
  if !equatingCows then if f.typ.isCow || f.typ.isNonCow then .ref core else core
  else core

/-- types.rs 1095-1238, what `write_write` writes. -/
def writeStmt (D : FileDescriptor) (cfg : Config) (f : Field) : Option Stmt :=
  let self := selfDot f.name
  match f.frequency.generated with
  | .singular =>
    (defaultTree D cfg f).bind fun d =>
      (writeTree f.typ (unwrapTree f false (.var .m)) f.boxed).bind fun mw =>
        (writeTree f.typ (unwrapTree f false self) f.boxed).bind fun sw =>
          match f.hasPresence, f.frequency.isOptional with
          | false, true => none
          | false, false => some (.ifThen (.bin .ne false (unwrapTree f true self) d) (.try_ (withTag f.tag sw)))
          | true, true => some (.expr (.try_ (.mcall (.mcall self .asRef none [] .nil) .mapOr none []
              (.cons (.call .ok [] (.one .unit))
                (.one (.closure [patAmp (!(f.boxed || !f.typ.isPrimitive)) .m] (withTag f.tag mw)))))))
          | true, false => some (.expr (.try_ (withTag f.tag sw)))
  | .arrayLike =>
    if f.isPacked then
      if f.typ.isFixedSize then
        some (.expr (.try_ (.mcall (.var .w) .writePackedFixedWithTag none [] (.cons (.num f.tag.toNat) (.one (.ref self))))))
      else
        (writeTree f.typ (.var .m) f.boxed).bind fun w => (sizeTree f.typ (.var .m)).map fun s =>
          .expr (.try_ (.mcall (.var .w) .writePackedWithTag none [] (.cons (.num f.tag.toNat) (.cons (.ref self)
            (.cons (.closure [.var .w, .deref .m] w) (.one (.ref (.closure [.deref .m] s))))))))
    else
      (writeTree f.typ (if f.typ.needToDereference then .deref (.var .s) else .var .s) f.boxed).map fun w =>
        .for_ (.var .s) (.ref self) (.try_ (withTag f.tag w))
  | .map =>
    match f.typ with
    | .map k v => (writeMapTree k v).map fun w =>
        .for_ (.pair (patAmp k.needToDereference .k) (patAmp v.needToDereference .v)) (.mcall self .iter none [] .nil)
          (.try_ (withTag f.tag w))
    | _ => none

/-! ## Oneofs -/

/-- types.rs 2410-2434, one arm of the reader. -/
def oneofMatchTree (D : FileDescriptor) (o : OneOf) (f : Field) : Option (Pat × ArmBody) :=
  let done (e : Expr) : Pat × ArmBody :=
    (.ok (.num f.tag.toNat), .simple (.assign .msg o.name (.call (.variant (oneofPath D o) f.name) [] (.one e))))
  if f.boxed then
    match f.typ with
    | .message _ => (readTree D f.typ).map fun e => done (.call .boxNew [] (.one e))
    | _ => none
  else (readTree D f.typ).map done

/-- types.rs 2450-2480, one arm of the size. -/
def oneofSizeTree (D : FileDescriptor) (o : OneOf) (f : Field) : Option (Pat × Expr) :=
  let tagSize := Expr.num (sizeofVarint f.tag)
  let arm (a : Pat) (s : Expr) : Pat × Expr := (.variant (oneofPath D o) f.name a, sum tagSize [s])
  if f.typ.isFixedSize then (sizeTree f.typ (.num 0)).map (arm .wild)
  else if f.typ.needToDereference then (sizeTree f.typ (.deref (.var .m))).map (arm (.var .m))
  else (sizeTree f.typ (.var .m)).map (arm (.refVar .m))

/-- Arms from a list, with the one for `None` at the end. -/
def Arms.of : List (Pat × Expr) → Arms
  | [] => .nil
  | (p, e) :: as => .cons p e (of as)

/-- types.rs 2438-2491. -/
def oneofSize (D : FileDescriptor) (cfg : Config) (o : OneOf) : Option Expr :=
  ((o.shown cfg).mapM (oneofSizeTree D o)).map fun as =>
    .match_ (.ref (selfDot o.name)) (Arms.of (as ++ [(.variantNone (oneofPath D o), .num 0)]))

/-- types.rs 2505-2527, one arm of the writer. -/
def oneofWriteTree (D : FileDescriptor) (o : OneOf) (f : Field) : Option (Pat × ArmBody) :=
  (writeTree f.typ (if f.typ.needToDereference || f.boxed then .deref (.var .m) else .var .m) f.boxed).map fun w =>
    (.variant (oneofPath D o) f.name (.var .m), .value (.try_ (withTag f.tag w)))

/-- types.rs 2493-2536. -/
def oneofWrite (D : FileDescriptor) (cfg : Config) (o : OneOf) : Option Stmt :=
  ((o.shown cfg).mapM (oneofWriteTree D o)).map fun as =>
    .match_ (.ref (selfDot o.name)) (as ++ [(.variantNone (oneofPath D o), .empty)])

/-! ## Messages -/

/-- The fields of a message for which code is generated. -/
def shownFields (cfg : Config) (m : Message) : List Field := m.fields.filter (·.visible cfg)

/-- types.rs 1901-1917, the body of `get_size`. -/
def sizeBody (D : FileDescriptor) (cfg : Config) (m : Message) : Option Body :=
  ((shownFields cfg m).mapM (sizeTerms D cfg)).bind fun fs => (m.oneofs.mapM (oneofSize D cfg)).map fun os =>
    ⟨[], (fs ++ os.map fun o => [o]).foldl addTerms (.num 0)⟩

/-- types.rs 1937-1956, the body of `write_message`. -/
def writeBody (D : FileDescriptor) (cfg : Config) (m : Message) : Option Body :=
  ((shownFields cfg m).mapM (writeStmt D cfg)).bind fun fs => (m.oneofs.mapM (oneofWrite D cfg)).map fun os =>
    ⟨fs ++ os, .call .ok [] (.one .unit)⟩

/-- types.rs 857-935, the arm of a field. -/
def fieldArm (D : FileDescriptor) (cfg : Config) (f : Field) : Option (Pat × ArmBody) :=
  (matchTree D cfg f).map fun b => (.ok (.num f.tag.toNat), b)

/-- types.rs 1693-1751, the body of `from_reader` of a message that is not a unit. -/
def readBody (D : FileDescriptor) (cfg : Config) (m : Message) : Option Body :=
  ((shownFields cfg m).mapM (fieldArm D cfg)).bind fun fs =>
    (m.oneofs.mapM fun (o : OneOf) => (o.shown cfg).mapM (oneofMatchTree D o)).map fun os =>
      ⟨[.letMut .msg (.call .selfDefault [] .nil),
        .whileMatch (.not (.mcall (.var .r) .isEof none [] .nil)) (.mcall (.var .r) .nextTag none [] (.one (.var .bytes)))
          (fs ++ os.flatten ++
            [(.ok (.var .t), .block (.try_ (.mcall (.var .r) .readUnknown none [] (.cons (.var .bytes) (.one (.var .t)))))),
             (.err (.var .e), .simple (.returnErr (.var .e)))])],
        .call .ok [] (.one (.var .msg))⟩

/-- types.rs 1697-1703, the body of `from_reader` of a unit message. -/
def unitReadBody : Body := ⟨[.expr (.mcall (.var .r) .readToEnd none [] .nil)], .call .ok [] (.one (.call .selfDefault [] .nil))⟩

/-- types.rs 1646-1661, the fields in the body of `default`. -/
def defaultFields (D : FileDescriptor) (cfg : Config) (m : Message) : Option (List (Str × Expr)) :=
  ((shownFields cfg m).mapM fun f => (defaultTree D cfg f).map fun e => (f.name, e)).map fun fs =>
    fs ++ m.oneofs.map fun o => (o.name, .variantNone (oneofPath D o))

/-- types.rs 1613-1618, the fields of the struct. -/
def structFields (D : FileDescriptor) (cfg : Config) (m : Message) : Option (List (Str × Ty)) :=
  ((shownFields cfg m).mapM fun f => (fieldTy D cfg f).map fun t => (f.name, t)).bind fun fs =>
    (m.oneofs.mapM fun (o : OneOf) => (o.hasLifetime D cfg).map fun l => (o.name, Ty.adt (oneofPath D o) l)).map fun os => fs ++ os

/-- types.rs 2300-2317, the variants of the enum of a oneof (without `None`, the last one). -/
def variantTys (D : FileDescriptor) (cfg : Config) (o : OneOf) : Option (List (Str × Ty)) :=
  (o.shown cfg).mapM fun f => (tyOf D cfg f.typ).map fun t => (f.name, if f.boxed then .box t else t)

end QP.Rust
