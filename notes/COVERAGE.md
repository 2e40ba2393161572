# Lines of /repo cited by the model

Generated by tools/coverage.py from the comments of the definitions.

## amelie/compiler/compiler/cast.c
- 29-353: `castOp` (Compile/Model.lean)
- 31-71: `castEqu` (Compile/Model.lean)
- 73-104: `castOrd` (Compile/Model.lean)
- 106-203: `castOrd` (Compile/Model.lean)
- 205-230: `castAdd` (Compile/Model.lean)
- 232-255: `castSub` (Compile/Model.lean)
- 318-322: `Expr.isLike` (Compile/Spec.lean)
- 380-399: `castOperator` (Compile/Model.lean)

## amelie/compiler/compiler/compiler.c
- 184-206: `runTable` (Query/Path.lean)
- 308: `UType` (Query/Union.lean)

## amelie/compiler/compiler/compiler_op.h
- 46-111: `CS.oppin` (Compile/Model.lean)
- 126-136: `CS.patch` (Compile/Model.lean)
- 138-145: `XCS.patchAll` (Compile/ScanModel.lean)

## amelie/compiler/compiler/emit_delete.c
- 30-49: `deleteBody` (Dml/Model.lean)
- 35-44: `returning` (Dml/Model.lean)
- 51-88: `execDelete` (Dml/Model.lean)

## amelie/compiler/compiler/emit_expr.c
- 125-181: `decodeTy` (Row/Model.lean)
- 257-268: `groupVal` (Query/Select.lean)
- 261: `Ex.onGroup` (Query/SelectSpec.lean)
- 596-604: `derive` (Compile/Model.lean)
- 676-725: `vBetween` (Query/Logic.lean)
- 749-794: `emitWhens` (Compile/Model.lean)
- 775-782: `caseType` (Compile/Model.lean)
- 815-817: `patchAll` (Compile/Model.lean)
- 872-878: `vNotIn` (Query/Logic.lean)
- 954-1254: `emit` (Compile/Model.lean)
- 1121-1140: `Cond.eval` (Query/Logic.lean)
- 1257-1363: `emitPush` (Compile/Model.lean)

## amelie/compiler/compiler/emit_insert.c
- 101-134: `storeGenerated` (Insert/Model.lean)

## amelie/compiler/compiler/emit_select.c
- 22-45: `scanOnMatch` (Compile/ScanModel.lean)
- 22-44: `Sel.emit` (Query/Select.lean)
- 22-44: `Row` (Query/Select.lean)
- 37-40: `demoOrder` (Compile/PropsScan.lean)
- 46-147: `Sel.feed` (Query/Select.lean)
- 47-149: `addRow` (Query/Agg.lean)
- 188-210: `Sel.cmp` (Query/Select.lean)
- 247-275: `scanOver` (Query/Select.lean)
- 262-266: `demoOrder` (Compile/PropsScan.lean)
- 280-333: `scanAggs` (Query/Agg.lean)
- 286-301: `Groups.create` (Query/Agg.lean)
- 361-363, 411-417: `UType` (Query/Union.lean)
- 405-440: `Sel.union` (Query/Union.lean)
- 476-490: `execAll` (Query/Select.lean)
- 492-507: `runParts` (Query/Select.lean)

## amelie/compiler/compiler/emit_update.c
- 30-83: `orderSets` (Dml/Model.lean)
- 44-48: `Stmt.Plain` (Part/Spec.lean)
- 50-80: `sampleKeys` (Row/Props.lean)
- 51-80: `place` (Dml/Model.lean)
- 86-106: `pushValues` (Dml/Model.lean)
- 86-117: `checkTypes` (Dml/Model.lean)
- 95-106: `rhsKind` (Dml/Model.lean)
- 127-150: `updateBody` (Dml/Model.lean)
- 138-149: `returning` (Dml/Model.lean)
- 152-187: `execUpdate` (Dml/Model.lean)

## amelie/compiler/compiler/emit_upsert.c
- 22-133: `execUpsert` (Dml/Model.lean)
- 46-99: `Action` (Dml/Model.lean)
- 46-99: `onConflict` (Dml/Model.lean)
- 102-117: `returning` (Dml/Model.lean)

## amelie/compiler/compiler/emit_utility.c
- 527-538: `Sys.ok` (Lock/Spec.lean)

## amelie/compiler/compiler/rmap.h
- 28-32: `CS.assign` (Compile/Model.lean)
- 56-72: `pinAt` (Compile/Model.lean)
- 74-78: `CS.unpin` (Compile/Model.lean)

## amelie/compiler/compiler/scan.c
- 22-42: `startOpds` (Query/Path.lean)
- 44-66: `stopOps` (Query/Path.lean)
- 45-67: `scanStop` (Compile/ScanModel.lean)
- 69-109: `scanOnMatch` (Compile/ScanModel.lean)
- 70-107: `scanOver` (Query/Select.lean)
- 75-83: `scanWhere` (Compile/ScanModel.lean)
- 76-83: `holds` (Dml/Model.lean)
- 76-83: `Cond.selects` (Query/Logic.lean)
- 84-96: `scanRows` (Query/Union.lean)
- 108-204: `loop` (Dml/Model.lean)
- 112-184: `scanTable` (Query/Path.lean)
- 114-198: `scanFrom` (Compile/ScanModel.lean)
- 114-152: `Stmt` (Part/Model.lean)
- 154-172: `scanLoop` (Query/Path.lean)
- 162-187: `demoOrder` (Compile/PropsScan.lean)
- 162-165: `scanFrom` (Compile/ScanModel.lean)
- 185-187: `XCS.patchAll` (Compile/ScanModel.lean)
- 189-194: `demoOrder` (Compile/PropsScan.lean)
- 332-377: `scan` (Compile/ScanModel.lean)
- 332-377: `scanRest` (Compile/ScanModel.lean)
- 363-369: `scanConst` (Compile/ScanModel.lean)

## amelie/compiler/parser/keyword.c
- 20-210: `kwNames` (Parse/Lex.lean)
- 212-240: `kwAlpha` (Parse/Lex.lean)

## amelie/compiler/parser/keyword.h
- 20-60: `LTok` (Parse/Lex.lean)

## amelie/compiler/parser/lex.c
- 141-158: `kwMatchIn` (Parse/Lex.lean)
- 148-156: `kwScan` (Parse/Lex.lean)
- 182-420: `lexNext` (Parse/Lex.lean)
- 195-216: `skipBlank` (Parse/Lex.lean)
- 205-213: `isComment` (Parse/Lex.lean)
- 219-254: `lexNumber` (Parse/Lex.lean)
- 257-316: `lexSymbol` (Parse/Lex.lean)
- 268-311: `twoChar` (Parse/Lex.lean)
- 319-375: `lexName` (Parse/Lex.lean)
- 329-335: `isNameChar` (Parse/Lex.lean)
- 337-340: `twoDots` (Parse/Lex.lean)
- 378-414: `lexString` (Parse/Lex.lean)
- 385-405: `strLoop` (Parse/Lex.lean)

## amelie/compiler/parser/parse_endpoint.c
- 56-100: `columnLoop` (Import/Model.lean)
- 70-100: `setColumns` (Import/Model.lean)
- 137-185: `importRow` (Import/Model.lean)
- 187-253: `importObj` (Import/Model.lean)
- 201-236: `objLoop` (Import/Model.lean)
- 211-229: `member` (Import/Model.lean)
- 241-252: `fillDefaults` (Import/Model.lean)
- 255-282: `importJsonRow` (Import/Model.lean)
- 260-276: `jsonObj` (Import/Model.lean)
- 284-294, 312-328: `rowsToEof` (Import/Model.lean)
- 296-310: `importJson` (Import/Model.lean)
- 296-310: `jsonLoop` (Import/Model.lean)
- 312-328: `importCsv` (Import/Model.lean)
- 330-389: `importInsert` (Import/Model.lean)
- 362-374: `importRows` (Import/Model.lean)
- 376-378: `atEof` (Import/Model.lean)
- 391-438: `importArgs` (Import/Model.lean)
- 412-423: `importArgRows` (Import/Model.lean)

## amelie/compiler/parser/parse_expr.c
- 22-66: `tokOf` (Parse/PropsText.lean)
- 22-66: `BinOp.prio` (Parse/Model.lean)
- 106-136: `popOp` (Parse/Model.lean)
- 138-154: `pushOp` (Parse/Model.lean)
- 195-240: `args` (Parse/Model.lean)
- 863-879: `negLit` (Parse/Model.lean)
- 943-948: `BinOp.isCmp` (Parse/Model.lean)
- 972-1000: `between` (Parse/Model.lean)
- 1011-1018, 1028-1035: `right` (Parse/Model.lean)
- 1019-1027: `inList` (Parse/Model.lean)
- 1092-1139: `loop` (Parse/Model.lean)
- 1141-1142: `collapse` (Parse/Model.lean)
- 1141-1165: `finish` (Parse/Model.lean)

## amelie/compiler/parser/parse_from.c
- 31-60: `collect` (Lock/Model.lean)

## amelie/compiler/parser/parse_group.h
- 41-54: `groupOf` (Query/Select.lean)

## amelie/compiler/parser/parse_index.c
- 84-86: `Indexed` (Query/SelectRun.lean)

## amelie/compiler/parser/parse_insert.c
- 20-65: `columnList` (Insert/Model.lean)
- 32-62: `columnLoop` (Insert/Model.lean)
- 85-145: `Conflict` (Dml/Model.lean)
- 206-262: `parseInsert` (Insert/Model.lean)
- 240-241: `genCount` (Insert/Model.lean)

## amelie/compiler/parser/parse_order.h
- 41-86: `matchKeys` (Query/Select.lean)

## amelie/compiler/parser/parse_returning.c
- 21-86: `Item` (Query/Select.lean)

## amelie/compiler/parser/parse_row.c
- 19-58: `parseRowList` (Insert/Model.lean)
- 31-54: `rowListLoop` (Insert/Model.lean)
- 43-45: `listComma` (Insert/Model.lean)
- 60-114: `parseRow` (Insert/Model.lean)
- 72-110: `rowLoop` (Insert/Model.lean)
- 85-99: `parseItem` (Insert/Model.lean)
- 102-108: `rowComma` (Insert/Model.lean)
- 116-140: `generate` (Insert/Model.lean)
- 117: `genCount` (Insert/Model.lean)
- 126-138: `defaults` (Insert/Model.lean)
- 137-153: `parseRows` (Insert/Model.lean)
- 146-149: `parseOne` (Insert/Model.lean)

## amelie/compiler/parser/parse_select.c
- 75-108, 438-447: `Sel` (Query/Union.lean)
- 76-109: `Stmt.orderKeys` (Query/Select.lean)
- 111-270: `Stmt` (Query/Select.lean)
- 178-186: `Parsed` (Query/SelectSpec.lean)
- 236-262: `Stmt.grouped` (Query/Select.lean)
- 343-386: `resolveGroups` (Query/Select.lean)
- 348-383: `resolveGroup` (Query/Select.lean)
- 352-367: `groupOrder` (Query/Select.lean)
- 374-376: `Ex.hasAgg` (Query/Select.lean)
- 391-424: `resolveOrder` (Query/Select.lean)
- 427-459: `resolve` (Query/Select.lean)
- 438-447: `Stmt.orderKeys` (Query/Select.lean)

## amelie/compiler/parser/parse_table.c
- 35-41: `KeyTy` (Row/Keys.lean)
- 41: `KTy` (Query/Path.lean)
- 180-190: `Acceptable` (Row/Values.lean)

## amelie/compiler/parser/parse_update.c
- 21-107: `parseSets` (Dml/Model.lean)
- 31-88: `parseSet` (Dml/Model.lean)

## amelie/compiler/parser/parse_value.c
- 20-65: `parseVector` (Insert/Model.lean)
- 33-62: `vecLoop` (Insert/Model.lean)
- 36-43, 110-116, 127-133: `optMinus` (Insert/Model.lean)
- 44-52: `compOf` (Insert/Model.lean)
- 67-256: `parseValue` (Insert/Model.lean)
- 67-256: `parseTyped` (Insert/Model.lean)
- 184-194: `optKw` (Insert/Model.lean)
- 258-274: `valueDefault` (Insert/Model.lean)
- 276-299: `validate` (Insert/Model.lean)

## amelie/compiler/parser/returning.h
- 52-65: `returningFind` (Query/Select.lean)

## amelie/compiler/plan/path.c
- 43-65: `takeStart` (Query/Path.lean)
- 67-90: `isCol` (Query/Path.lean)
- 92-109: `takeStart` (Query/Path.lean)
- 111-128: `takeStop` (Query/Path.lean)
- 195-232: `outer` (Query/Path.lean)
- 234-313: `pathKey` (Query/Path.lean)
- 238-311: `pathKeyOp` (Query/Path.lean)
- 260-310: `applyOp` (Query/Path.lean)
- 315-352: `pathKeys` (Query/Path.lean)
- 328-348: `isLookup` (Query/Path.lean)

## amelie/compiler/plan/path.h
- 27-34: `PathKey` (Query/Path.lean)

## amelie/compiler/plan/path_op.h
- 17-23: `POp` (Query/Path.lean)
- 51-106: `pathOps` (Query/Path.lean)

## amelie/compiler/plan/plan.c
- 35-56: `planGroupBy` (Query/Select.lean)
- 58-88: `planGroupByOrderBy` (Query/Select.lean)
- 79-83, 102-106: `Sel.plain` (Query/Select.lean)
- 82-130: `Sel.RunsMain` (Query/Union.lean)
- 90-111: `planOrderBy` (Query/Select.lean)
- 113-126: `planScan` (Query/Select.lean)
- 128-182: `planMain` (Query/Select.lean)
- 159-176: `demoOrder` (Compile/PropsScan.lean)

## amelie/compiler/plan/plan_op.h
- 38-70: `Cmd` (Query/Select.lean)

## amelie/compiler/plan/plan_pushdown.c
- 82-162: `Sel.backend` (Query/Union.lean)
- 110-120, 143-152: `Sel.pushed` (Query/Union.lean)
- 110-120, 143-152: `Sel.pushed` (Query/Select.lean)
- 165-211: `planPushdown` (Query/Select.lean)

## amelie/db/catalog/cascade.c
- 23-55: `dbDropObjects` (Catalog/Model.lean)
- 57-80: `dbDrop` (Catalog/Model.lean)
- 82-105: `dbRenameObjects` (Catalog/Model.lean)
- 107-133: `dbRename` (Catalog/Model.lean)

## amelie/db/catalog/catalog.c
- 57-86: `boot` (Catalog/Reach.lean)
- 108-118: `Sys.init` (Recover/Model.lean)
- 142: `execDdl` (Recover/Model.lean)
- 152-164: `noUses` (Catalog/Model.lean)
- 160-590: `Ddl` (Recover/Model.lean)
- 166-613: `exec` (Catalog/Model.lean)
- 234-247: `tabDrop` (Catalog/Model.lean)
- 248-268: `tabRenameTop` (Catalog/Model.lean)
- 310-311: `colDrop` (Catalog/Model.lean)
- 331-332: `colRename` (Catalog/Model.lean)
- 361-376: `idxDrop` (Catalog/Model.lean)
- 377-392: `idxRename` (Catalog/Model.lean)
- 508-522: `udfCreate` (Catalog/Model.lean)
- 523-560: `udfReplace` (Catalog/Model.lean)
- 561-575: `udfDrop` (Catalog/Model.lean)
- 576-598: `udfRename` (Catalog/Model.lean)

## amelie/db/catalog/catalog_file.c
- 32-79: `restore` (Catalog/File.lean)
- 81-100: `created` (Catalog/File.lean)
- 102-147: `restore` (Catalog/File.lean)
- 106: `restoreCatalog` (Recover/Model.lean)
- 121-140: `restoreLoop` (Catalog/File.lean)
- 146-181: `catRead` (Recover/FilesModel.lean)
- 149-188: `restart` (Catalog/File.lean)
- 190-222: `catJ` (Catalog/File.lean)
- 217-269: `minOpt` (Recover/Model.lean)
- 217-269: `catWrite` (Recover/FilesModel.lean)
- 224-249: `fileText` (Catalog/File.lean)

## amelie/db/catalog/catalog_snapshot.c
- 52-79: `linkAll` (Backup/Model.lean)
- 84-110: `cleanup` (Backup/Model.lean)

## amelie/db/catalog/database_config.h
- 16-20: `Db` (Catalog/Model.lean)
- 60-72: `readDb` (Catalog/File.lean)
- 74-87: `dbJ` (Catalog/File.lean)

## amelie/db/catalog/database_mgr.c
- 36-58: `dbCreate` (Catalog/Model.lean)
- 60-81: `dbDropOnly` (Catalog/Model.lean)
- 106-142: `dbRenameOnly` (Catalog/Model.lean)
- 145-157: `catJ` (Catalog/File.lean)

## amelie/db/catalog/table.h
- 16-24: `Tab` (Catalog/Model.lean)
- 43-62: `execDdl` (Recover/Model.lean)
- 64-97: `tabCopy` (Catalog/Model.lean)

## amelie/db/catalog/table_config.h
- 16-28: `Tab` (Catalog/Model.lean)
- 121-155: `tabCopy` (Catalog/Model.lean)
- 157-202: `readTab` (Catalog/File.lean)
- 204-256: `tabJ` (Catalog/File.lean)

## amelie/db/catalog/table_index.c
- 59-71: `idxCreate` (Catalog/Model.lean)
- 94-115: `idxDrop` (Catalog/Model.lean)
- 138-174: `idxRename` (Catalog/Model.lean)
- 205-219: `findIdx` (Catalog/Model.lean)

## amelie/db/catalog/table_mgr.c
- 40-67: `tabCreate` (Catalog/Model.lean)
- 42-68: `execDdl` (Recover/Model.lean)
- 70-91: `execDdl` (Recover/Model.lean)
- 76-91: `tabDrop` (Catalog/Model.lean)
- 93-138: `execDdl` (Recover/Model.lean)
- 119-143: `tabTruncate` (Catalog/Model.lean)

## amelie/db/catalog/table_mgr_alter.c
- 51-86: `tabRename` (Catalog/Model.lean)
- 111-137: `tabIdentity` (Catalog/Model.lean)
- 114-141: `insertRow` (Seq/Model.lean)
- 160-183: `tabUnlogged` (Catalog/Model.lean)
- 210-256: `colRename` (Catalog/Model.lean)
- 282-322: `colAdd` (Catalog/Model.lean)
- 354-407: `colDrop` (Catalog/Model.lean)
- 402-410: `Clean` (Insert/Spec.lean)
- 438-502: `colSet` (Catalog/Model.lean)
- 474-495: `Set_.apply` (Catalog/Model.lean)

## amelie/db/catalog/table_tier.c
- 66-102: `tierCreate` (Catalog/Model.lean)
- 125-145: `tierDrop` (Catalog/Model.lean)
- 169-207: `tierRename` (Catalog/Model.lean)
- 241-299: `volAdd` (Catalog/Model.lean)
- 335-387: `volDrop` (Catalog/Model.lean)
- 415-472: `volPause` (Catalog/Model.lean)
- 494-526: `tierSet` (Catalog/Model.lean)

## amelie/db/catalog/udf.h
- 18-26: `Udf` (Catalog/Model.lean)
- 58-62: `udfCopy` (Catalog/Model.lean)

## amelie/db/catalog/udf_config.h
- 16-24: `Udf` (Catalog/Model.lean)
- 91-112: `readUdf` (Catalog/File.lean)
- 114-150: `udfJ` (Catalog/File.lean)

## amelie/db/catalog/udf_mgr.c
- 37-58: `udfCreate` (Catalog/Model.lean)
- 125-153: `udfReplace` (Catalog/Model.lean)
- 206-244: `udfRename` (Catalog/Model.lean)

## amelie/db/db/db.c
- 48-55: `restart` (Recover/Model.lean)

## amelie/db/db/recover.c
- 52-70: `recoverCmd` (Recover/Model.lean)
- 76-96: `insertRow` (Seq/Model.lean)
- 82-89, 104-111: `rows` (Wal/Model.lean)
- 88-94, 108-113: `Mem.row` (Recover/Model.lean)
- 117-122: `insertRow` (Seq/Model.lean)
- 133-151: `changes` (Wal/Model.lean)
- 139-150: `Cmd.read` (Wal/Model.lean)
- 143-179: `recoverRecord` (Recover/Model.lean)
- 143-155: `groups` (Recover/Model.lean)
- 176-201: `replay` (Catalog/Model.lean)
- 180-200: `aborted` (Catalog/Model.lean)
- 194-198: `groups` (Recover/Model.lean)
- 201-240: `restart` (Recover/Model.lean)
- 203-241: `recoverFiles` (Wal/Model.lean)

## amelie/db/db/snapshot_mgr.c
- 63-119: `register` (Backup/Model.lean)
- 112-116: `snapshot` (Backup/Model.lean)
- 138-155: `drop` (Backup/Model.lean)

## amelie/db/db/snapshot_mgr.h
- 18-23: `Bk` (Backup/Model.lean)

## amelie/db/heap/heap.c
- 85-96: `bucketSize` (Heap/Model.lean)
- 99-113: `Heap.init` (Heap/Model.lean)
- 130-152: `logToBucket` (Heap/Model.lean)
- 154-185: `bucketOf` (Heap/Model.lean)
- 187-267: `Heap.add` (Heap/Model.lean)
- 187-267: `Mem.add` (Heap/Snapshot.lean)
- 217-234: `Heap.prepare` (Heap/Model.lean)
- 218-221: `noRoom` (Heap/Model.lean)
- 235-251: `Heap.bump` (Heap/Model.lean)
- 269-312: `Heap.remove` (Heap/Model.lean)
- 269-312: `Mem.remove` (Heap/Snapshot.lean)

## amelie/db/heap/heap.h
- 18-44: `headerSize` (Heap/Model.lean)
- 18-44: `Chunk` (Heap/Model.lean)
- 46-56: `FreeList` (Heap/Model.lean)
- 80-90: `Heap` (Heap/Model.lean)
- 98-102: `Heap.chunkAt` (Heap/Model.lean)

## amelie/db/heap/heap_file.c
- 66-158: `Heap.reopen` (Heap/Model.lean)

## amelie/db/heap/heap_iterator.h
- 25-43: `Heap.nextChunk` (Heap/Model.lean)
- 45-50, 78-83: `Heap.walk` (Heap/Model.lean)
- 52-64: `Heap.scan` (Heap/Model.lean)

## amelie/db/heap/heap_row.h
- 15-22: `rowBuild` (Row/Model.lean)

## amelie/db/heap/page_mgr.h
- 18-27: `Page` (Heap/Model.lean)
- 18-27: `headerSize` (Heap/Model.lean)
- 44: `pageSize` (Heap/Model.lean)

## amelie/db/index/hash.h
- 16-24: `Hash` (Index/Hash.lean)
- 46-52: `Hash.create` (Index/Hash.lean)
- 54-66: `Hash.rehashStart` (Index/Hash.lean)
- 68-95: `Hash.rehash` (Index/Hash.lean)
- 72-88: `rehashFind` (Index/Hash.lean)
- 97-119: `Hash.set` (Index/Hash.lean)
- 112-116, 160-164: `Hash.grow` (Index/Hash.lean)
- 121-168: `Hash.getOrSet` (Index/Hash.lean)
- 170-184: `Hash.delete` (Index/Hash.lean)

## amelie/db/index/hash_iterator.h
- 16-22: `Iter` (Index/Hash.lean)
- 24-51: `openKey` (Index/Hash.lean)
- 53-72: `openScan` (Index/Hash.lean)
- 74-81: `openAt` (Index/Hash.lean)
- 95-116: `iterNext` (Index/Hash.lean)
- 118-126: `iterReplace` (Index/Hash.lean)
- 128-138: `iterDelete` (Index/Hash.lean)

## amelie/db/index/hash_store.h
- 15: `Slot` (Index/Hash.lean)
- 17-23: `Store` (Index/Hash.lean)
- 48-52: `Store.isFull` (Index/Hash.lean)
- 54-62: `Store.create` (Index/Hash.lean)
- 64-150: `probe` (Index/Hash.lean)
- 64-92: `Store.set` (Index/Hash.lean)
- 71-83: `stopSet` (Index/Hash.lean)
- 94-118: `Store.delete` (Index/Hash.lean)
- 99-110: `stopGet` (Index/Hash.lean)
- 120-151: `Store.get` (Index/Hash.lean)
- 153-169: `nextFrom` (Index/Hash.lean)

## amelie/db/index/index.h
- 59-63: `assign` (Heap/Snapshot.lean)

## amelie/db/index/index_config.h
- 23-31: `Idx` (Catalog/Model.lean)
- 79-89: `idxCopy` (Catalog/Model.lean)
- 91-108: `readIdx` (Catalog/File.lean)
- 110-137: `idxJ` (Catalog/File.lean)

## amelie/db/index/index_hash.c
- 18-70: `step` (Index/Hash.lean)

## amelie/db/index/index_hash_merge.h
- 16-23: `Merge` (Index/Hash.lean)
- 31-49: `Merge.open` (Index/Hash.lean)
- 58-65: `Merge.at` (Index/Hash.lean)
- 67-92: `Merge.next` (Index/Hash.lean)

## amelie/db/index/index_tree.c
- 20-66: `step` (Index/TreeHistory.lean)
- 23-32: `Ix.upsert` (Part/Model.lean)
- 34-39: `Ix.replaceBy` (Part/Model.lean)
- 34-66: `scanLoop` (Index/Tree.lean)
- 41-47: `Ix.replaceAt` (Part/Model.lean)
- 41-47: `partUpdate` (Part/Model.lean)
- 49-54: `Ix.deleteBy` (Part/Model.lean)
- 56-62: `Ix.deleteAt` (Part/Model.lean)

## amelie/db/index/index_tree_merge.h
- 16-22: `TreeMerge` (Index/Merge.lean)
- 30-72: `TreeMerge.step` (Index/Merge.lean)
- 43-69: `pickMin` (Index/Merge.lean)
- 74-87: `TreeMerge.open` (Index/Merge.lean)
- 96-103: `TreeMerge.at` (Index/Merge.lean)

## amelie/db/index/tree.c
- 16-28: `Tree.init` (Index/Tree.lean)
- 75-82: `find` (Index/Tree.lean)
- 84-102: `searchPage` (Index/Tree.lean)
- 95: `Normal` (Index/TreeProofs.lean)
- 112-135: `search` (Index/Tree.lean)
- 137-174: `setInto` (Index/Tree.lean)
- 165-170: `insertAt` (Index/Tree.lean)
- 176-191: `treeSet` (Index/Tree.lean)
- 193-222: `treeUpsert` (Index/Tree.lean)
- 224-233: `treeReplace` (Index/Tree.lean)
- 235-280: `treeDelete` (Index/Tree.lean)
- 282-302: `treeDeleteBy` (Index/Tree.lean)
- 304-325: `treeGet` (Index/Tree.lean)

## amelie/db/index/tree.h
- 24-28: `Pos` (Index/Tree.lean)
- 30-38: `Tree` (Index/Tree.lean)

## amelie/db/index/tree_iterator.h
- 16-23: `Iter` (Index/Tree.lean)
- 25-48: `iterOpen` (Index/Tree.lean)
- 50-57: `iterOpenAt` (Index/Tree.lean)
- 71-107: `iterNext` (Index/Tree.lean)
- 109-122: `iterReplace` (Index/Tree.lean)
- 124-142: `iterDelete` (Index/Tree.lean)

## amelie/db/object/branch_iterator.h
- 16-26: `BranchIt` (Object/Model.lean)
- 28-40: `openRegion` (Object/Model.lean)
- 42-61: `branchOpen` (Object/Model.lean)
- 69-73: `BranchIt.at` (Object/Model.lean)
- 75-99: `BranchIt.next` (Object/Model.lean)
- 84-98: `branchNextLoop` (Object/Model.lean)

## amelie/db/object/merge_iterator.h
- 23-32: `MergeIt` (Index/Merge.lean)
- 34-51: `MergeIt.open` (Index/Merge.lean)
- 59-65: `MergeIt.at` (Index/Merge.lean)
- 64-109: `MergeIt.next` (Index/Merge.lean)
- 79-107: `pickMerge` (Index/Merge.lean)

## amelie/db/object/meta.h
- 20-31: `Stored` (Object/Model.lean)
- 20-31: `Ref` (Object/File.lean)
- 33-48: `Meta` (Object/File.lean)
- 55-63: `rowAt` (Object/Model.lean)
- 56-64: `readRef` (Object/File.lean)

## amelie/db/object/meta_iterator.h
- 16-23: `MetaIt` (Object/Model.lean)
- 34-52: `metaSearch` (Object/Model.lean)
- 34-52: `metaSearchLoop` (Object/Model.lean)
- 54-85: `metaOpen` (Object/Model.lean)
- 99-107: `MetaIt.next` (Object/Model.lean)

## amelie/db/object/meta_writer.h
- 77-100: `header` (Object/File.lean)
- 91, 112: `firstLen` (Object/File.lean)
- 102-146: `refOf` (Object/File.lean)
- 148-154: `index` (Object/File.lean)

## amelie/db/object/object.c
- 48-56: `readIndex` (Object/File.lean)
- 58-90: `readIndex` (Object/File.lean)
- 92-136: `objectRead` (Object/File.lean)
- 138-160: `objectOpen` (Object/File.lean)
- 143-149: `objectBranches` (Object/File.lean)

## amelie/db/object/reader.h
- 60-88: `readRegion` (Object/Model.lean)
- 60-88: `readRegion` (Object/File.lean)

## amelie/db/object/region.h
- 16-23: `regionMeta` (Object/File.lean)
- 24-33: `rowAt` (Object/Model.lean)
- 25-33: `regionRow` (Object/File.lean)

## amelie/db/object/region_iterator.h
- 16-23: `RegionIt` (Object/Model.lean)
- 25-36: `RegionIt.setPos` (Object/Model.lean)
- 45-67: `regionSearchLoop` (Object/Model.lean)
- 45-67: `regionSearch` (Object/Model.lean)
- 69-90: `regionOpen` (Object/Model.lean)
- 104-110: `RegionIt.next` (Object/Model.lean)

## amelie/db/object/region_writer.h
- 57-61: `regionSize` (Object/File.lean)
- 70-117: `regionMeta` (Object/File.lean)
- 80-91: `stopRegion` (Object/File.lean)

## amelie/db/object/writer.c
- 51-57: `isLimit` (Object/File.lean)
- 66-84: `stopRegion` (Object/File.lean)
- 86-108: `start` (Object/File.lean)
- 110-130: `stop` (Object/File.lean)
- 132-145: `add` (Object/File.lean)

## amelie/db/part/cursor.c
- 24-110: `cursorRows` (Query/Path.lean)
- 113-135: `mergeScan` (Index/Hash.lean)
- 165-190: `Stmt` (Part/Model.lean)
- 184-189: `crossPart` (Query/Path.lean)

## amelie/db/part/part.c
- 57-75: `rebuild` (Heap/Snapshot.lean)
- 57-75: `Partn.restart` (Heap/Snapshot.lean)
- 58-84: `insertRow` (Seq/Model.lean)
- 60-84: `loadRows` (Recover/Model.lean)
- 84-89: `execDdl` (Recover/Model.lean)
- 85-90: `Partn.truncate` (Heap/Snapshot.lean)

## amelie/db/part/part.h
- 18-29: `Mem` (Recover/Model.lean)

## amelie/db/part/part_mapping.h
- 16: `createLoop` (Store/Mapping.lean)
- 47-56: `mapAdd` (Store/Mapping.lean)
- 54-55: `fill` (Store/Mapping.lean)
- 58-65: `mapRemove` (Store/Mapping.lean)
- 67-72: `Image` (Recover/Model.lean)
- 67-72: `route` (Store/Mapping.lean)

## amelie/db/part/part_mgr.c
- 55-84: `load` (Recover/Model.lean)
- 80-83: `followParts` (Recover/Model.lean)
- 96-115: `execDdl` (Recover/Model.lean)
- 117-126: `execDdl` (Recover/Model.lean)

## amelie/db/part/part_mgr_config.h
- 48-62: `readParts` (Catalog/File.lean)
- 64-78: `partsJ` (Catalog/File.lean)

## amelie/db/part/part_mgr_recover.c
- 48-80: `entryOps` (Recover/FilesModel.lean)
- 84-142: `load` (Recover/Model.lean)
- 88-142: `create` (Store/Mapping.lean)
- 100-127: `createLoop` (Store/Mapping.lean)

## amelie/db/part/part_op.c
- 23-34: `undo` (Part/Model.lean)
- 36-46: `Mem.put` (Recover/Model.lean)
- 36-46: `commitOp` (Part/Model.lean)
- 48-57: `abortOp` (Part/Model.lean)
- 88-97: `syncNext` (Seq/Model.lean)
- 94-131: `Mem.put` (Recover/Model.lean)
- 98-136: `partInsert` (Part/Model.lean)
- 99-100: `minOpt` (Recover/Model.lean)
- 100-134: `insertRow` (Seq/Model.lean)
- 117-127: `insertSecondary` (Part/Model.lean)
- 126-128: `replay` (Seq/Model.lean)
- 138-174: `partUpsert` (Part/Model.lean)
- 141-171: `upsertRow` (Dml/Model.lean)
- 173-201: `updateBody` (Dml/Model.lean)
- 176-204: `partUpdate` (Part/Model.lean)
- 189-200: `updateSecondary` (Part/Model.lean)
- 203-240: `deleteBody` (Dml/Model.lean)
- 204-243: `Mem.del` (Recover/Model.lean)
- 206-254: `partDelete` (Part/Model.lean)
- 242-249: `deleteSecondary` (Part/Model.lean)
- 246-257: `Mem.del` (Recover/Model.lean)
- 256-267: `partDeleteBy` (Part/Model.lean)

## amelie/db/row/column.h
- 16-27: `Col` (Dml/Model.lean)
- 16-27: `Col` (Insert/Model.lean)
- 17-28: `Col` (Catalog/Model.lean)
- 17-28: `Column` (Row/Model.lean)
- 79-87: `colCopy` (Catalog/Model.lean)
- 89-109: `readCol` (Catalog/File.lean)
- 111-137: `colJ` (Catalog/File.lean)

## amelie/db/row/columns.h
- 46-48: `Col` (Catalog/Model.lean)
- 59-61: `identityOf` (Insert/Model.lean)
- 79-98: `hasIdentity` (Catalog/Model.lean)
- 100-112: `findCol` (Catalog/Model.lean)
- 101-113: `findCol` (Insert/Model.lean)
- 101-113: `findCol` (Dml/Model.lean)
- 115-135: `findOne` (Query/Select.lean)
- 158-173: `sameTypes` (Catalog/Model.lean)
- 196-206: `readCols` (Catalog/File.lean)
- 208-219: `colsJ` (Catalog/File.lean)

## amelie/db/row/compare.h
- 14-48: `compare` (Row/Model.lean)
- 20-44: `cmpKey` (Row/Model.lean)

## amelie/db/row/constraints.h
- 23-31: `Cons` (Catalog/Model.lean)
- 24-33: `Col` (Insert/Model.lean)
- 24-33: `Col` (Dml/Model.lean)
- 33-42: `Cons.init` (Catalog/Model.lean)
- 99-138: `consLoop` (Catalog/File.lean)
- 103-136: `readPair` (Catalog/File.lean)
- 140-206: `consJ` (Catalog/File.lean)

## amelie/db/row/key.h
- 16-23: `KeyRef` (Catalog/Model.lean)
- 16-23: `Key` (Row/Model.lean)
- 58-71: `readKey` (Catalog/File.lean)
- 73-88: `keyJ` (Catalog/File.lean)

## amelie/db/row/keys.h
- 48-61: `isKey` (Catalog/Model.lean)
- 48-61: `readKey` (Catalog/File.lean)
- 50-63: `Key` (Row/Model.lean)
- 126-136: `readIdx` (Catalog/File.lean)
- 138-149: `idxJ` (Catalog/File.lean)

## amelie/db/row/row.h
- 26-39: `rowInit` (Row/Model.lean)
- 32-38, 44-48, 57-63: `width` (Row/Model.lean)
- 41-49: `rowSize` (Row/Model.lean)
- 51-67: `rowAt` (Row/Model.lean)
- 75-79: `rowBuild` (Row/Model.lean)
- 88-98: `rowSet` (Row/Model.lean)
- 106-124: `rowHash` (Row/Model.lean)
- 106-124: `hashKeyInt` (Index/PropsHash.lean)
- 126-146: `rowMeasure` (Row/Model.lean)

## amelie/db/row/sequence.h
- 22-27: `St.init` (Seq/Model.lean)
- 54-63: `sync` (Seq/Model.lean)
- 58: `syncNext` (Seq/Model.lean)

## amelie/db/row/type.h
- 14-28: `Ty` (Compile/Model.lean)
- 15-36: `Val.typeNo` (Query/Value.lean)
- 126-214: `Ty` (Row/Model.lean)
- 126-214: `Ty.size` (Row/Model.lean)

## amelie/db/service/flush.c
- 69: `flushOps` (Recover/FilesModel.lean)

## amelie/db/service/indexate.c
- 101-103: `Mem.begin` (Heap/Snapshot.lean)
- 117-126: `buildJob` (Heap/Snapshot.lean)
- 164-187: `applyBuild` (Heap/Snapshot.lean)

## amelie/db/service/op.c
- 58-60: `minOpt` (Recover/Model.lean)
- 94-136: `minOpt` (Recover/Model.lean)
- 94-139: `minOpt` (Recover/Model.lean)
- 130-187: `idxCreate` (Catalog/Model.lean)

## amelie/db/service/refresh.c
- 27-76: `minOpt` (Recover/Model.lean)
- 45-71, 143-151: `Reach` (Heap/SnapSpec.lean)
- 73-75: `Mem.begin` (Heap/Snapshot.lean)
- 78-91: `Job.prep` (Recover/FilesModel.lean)
- 93-130: `minOpt` (Recover/Model.lean)
- 156-176: `applyShadow` (Heap/Snapshot.lean)

## amelie/db/service/service_file.h
- 79-127: `SvcText` (Recover/FilesModel.lean)
- 79-127: `createService` (Recover/FilesModel.lean)

## amelie/db/service/service_lock_mgr.h
- 18-26: `Rel` (ServiceLock/Model.lean)
- 35-40: `St` (ServiceLock/Model.lean)
- 96-123: `create` (ServiceLock/Model.lean)
- 137-140: `Job.uses` (ServiceLock/Model.lean)
- 151-161: `Job.uses` (ServiceLock/Model.lean)
- 157-175: `unref` (ServiceLock/Model.lean)

## amelie/db/service/service_recover.c
- 45-84: `entryOps` (Recover/FilesModel.lean)

## amelie/db/storage/basefile.h
- 32-57: `entry` (Backup/Model.lean)

## amelie/db/storage/encoder.h
- 53-59: `idOf` (Object/File.lean)
- 61-78: `codecOf` (Object/File.lean)
- 119-128: `crcOf` (Object/File.lean)
- 142-160: `encode` (Object/File.lean)

## amelie/db/storage/id.h
- 16-21: `State` (Store/IdName.lean)
- 30-40: `idStateOf` (Store/IdName.lean)
- 42-52: `idState` (Store/IdName.lean)
- 50: `snap` (Backup/Model.lean)
- 54-66: `idOfNext` (Store/IdName.lean)
- 68-98: `idOf` (Store/IdName.lean)
- 97-124: `IsPart` (Backup/Model.lean)
- 100-130: `idPath` (Store/IdName.lean)
- 158-176: `linkAll` (Backup/Model.lean)

## amelie/db/storage/storage.h
- 16-21: `Stor` (Catalog/Model.lean)

## amelie/db/storage/storage_config.h
- 16-23: `Stor` (Catalog/Model.lean)
- 90-105: `readStor` (Catalog/File.lean)
- 107-131: `storJ` (Catalog/File.lean)

## amelie/db/storage/storage_mgr.c
- 29-51: `storCreate` (Catalog/Model.lean)
- 53-79: `storDrop` (Catalog/Model.lean)
- 66-68: `miss` (Catalog/Model.lean)
- 107-146: `storRename` (Catalog/Model.lean)
- 148-160: `catJ` (Catalog/File.lean)

## amelie/db/storage/volume.h
- 16-25: `Vol` (Catalog/Model.lean)
- 82-90: `volCopy` (Catalog/Model.lean)
- 92-105: `readVol` (Catalog/File.lean)
- 107-129: `volJ` (Catalog/File.lean)

## amelie/db/storage/volume_mgr.h
- 68-77: `readVols` (Catalog/File.lean)
- 79-89: `volsJ` (Catalog/File.lean)
- 101-111: `onVol` (Catalog/Model.lean)
- 101-111: `findVol` (Catalog/Model.lean)

## amelie/db/tier/tier_config.h
- 22-29: `Tier` (Catalog/Model.lean)
- 76-85: `tierCopy` (Catalog/Model.lean)
- 87-95: `tierSet` (Catalog/Model.lean)
- 97-117: `readTier` (Catalog/File.lean)
- 119-142: `tierJ` (Catalog/File.lean)

## amelie/db/tier/tier_mgr.c
- 91-101: `findTier` (Catalog/Model.lean)

## amelie/db/transaction/commit.c
- 34-49: `finishAll` (Catalog/Model.lean)
- 36-50: `trCommit` (Part/Model.lean)
- 51-65: `undoAll` (Catalog/Model.lean)
- 52-65: `trAbort` (Part/Model.lean)
- 67-81: `trCommitList` (Part/Model.lean)
- 83-98: `trAbortList` (Part/Model.lean)

## amelie/db/transaction/consensus.h
- 16-20: `Consensus` (Part/Model.lean)

## amelie/db/transaction/log.h
- 22-28, 148-168: `Undo` (Catalog/Model.lean)
- 27-39: `LogRow` (Part/Model.lean)
- 127-155: `WLog.change` (Wal/Model.lean)
- 132-153: `execAll` (Part/Model.lean)

## amelie/db/transaction/record.h
- 17-20: `REPLACE` (Wal/Model.lean)
- 22-23: `DDL` (Wal/Model.lean)
- 26-33: `Hdr` (Wal/Model.lean)
- 35-41: `Cmd` (Wal/Model.lean)
- 43-47: `Cmd.read` (Wal/Model.lean)
- 49-53: `decode` (Wal/Model.lean)
- 71-79: `validate` (Wal/Model.lean)
- 81-86: `validateCmd` (Wal/Model.lean)

## amelie/db/transaction/relation_mgr.c
- 36-42: `put` (Catalog/Model.lean)
- 44-50: `del` (Catalog/Model.lean)
- 52-65: `findStor` (Catalog/Model.lean)
- 130-138: `tabDropOf` (Catalog/Model.lean)

## amelie/db/transaction/track.h
- 16-29: `Pod` (Part/Model.lean)
- 44-56: `Pod.init` (Part/Model.lean)
- 106-126: `Pod.sync` (Part/Model.lean)

## amelie/db/transaction/write.h
- 49-60: `header` (Wal/Model.lean)
- 62-73: `Hdr.finish` (Wal/Model.lean)
- 70, 91: `recordOff` (Crc/Props.lean)

## amelie/db/transaction/write_log.h
- 16-21: `WLog` (Wal/Model.lean)
- 52-79: `WLog.add` (Wal/Model.lean)
- 77, 95: `recordOff` (Crc/Props.lean)
- 81-98: `WLog.addOp` (Wal/Model.lean)

## amelie/db/wal/wal.c
- 70-104: `Step` (Backup/Model.lean)
- 71-104: `Wal.init` (Wal/Model.lean)
- 71-104: `Wal.create` (Wal/Model.lean)
- 106-136: `walGc` (Backup/Model.lean)
- 107-137: `slotsMin` (Wal/Model.lean)
- 180-246: `tornLog` (Wal/Props.lean)
- 180-246: `truncate` (Wal/Model.lean)
- 200-230: `cutAt` (Wal/Model.lean)
- 249-257: `Wal.init` (Wal/Model.lean)
- 270-279: `tornLog` (Wal/Props.lean)
- 286-318: `batch` (Wal/Model.lean)
- 303-315: `record` (Wal/Model.lean)
- 311-374: `Sys.ahead` (Repl/Model.lean)
- 320-351: `Wal.write` (Wal/Model.lean)
- 350: `Wal.mgrWrite` (Wal/Model.lean)
- 431: `walGc` (Backup/Model.lean)
- 442: `walPath` (Backup/Model.lean)

## amelie/db/wal/wal_cursor.c
- 34-54: `startFile` (Wal/Model.lean)
- 56-69: `rewind` (Wal/Model.lean)
- 95-142: `cursorRead` (Wal/Model.lean)
- 124-138: `Sys.ahead` (Repl/Model.lean)
- 144-149: `cursorAll` (Wal/Model.lean)
- 149-168: `Sys.canRead` (Repl/Model.lean)

## amelie/db/wal/wal_file.h
- 36-44: `openFile` (Wal/Model.lean)
- 79-83: `raceLog` (Wal/Props.lean)
- 79-83: `eof` (Wal/Model.lean)
- 85-111: `pread` (Wal/Model.lean)

## amelie/db/wal/wal_mgr.c
- 82-100: `Wal.mgrWrite` (Wal/Model.lean)
- 103-113: `tornLog` (Wal/Props.lean)
- 103-113: `Wal.mgrWrite` (Wal/Model.lean)

## amelie/db/wal/wal_worker.c
- 48-51: `Wal.mgrWrite` (Wal/Model.lean)
- 51: `raceLog` (Wal/Props.lean)

## amelie/main/main/main.c
- 287-294: `secretOf` (Config/Props.lean)

## amelie/main/main/main_cli.c
- 17-18: `lines` (Cli/Model.lean)
- 96-126: `session` (Cli/Model.lean)
- 118-123: `drain` (Cli/Model.lean)

## amelie/main/main/main_configure.c
- 138: `jwtCreate` (Net/Auth.lean)

## amelie/runtime/base/atomic.h
- 57-61: `newId` (Seq/Model.lean)

## amelie/runtime/base/buf.h
- 17-25: `Buf` (Buf/Model.lean)
- 27-36: `Buf.init` (Buf/Model.lean)
- 62-66, 130-156: `Buf.content` (Buf/Model.lean)
- 75-79: `Buf.reset` (Buf/Model.lean)
- 81-100: `Buf.reserve` (Buf/Model.lean)
- 102-107: `Buf.advance` (Buf/Model.lean)
- 109-114: `Buf.truncate` (Buf/Model.lean)
- 116-121: `Buf.append` (Buf/Model.lean)
- 158-165: `Buf.emplace` (Buf/Model.lean)
- 167-172: `Buf.write` (Buf/Model.lean)
- 174-220: `Buf.write` (Buf/Model.lean)
- 222-232: `Buf.printf` (Buf/Model.lean)

## amelie/runtime/base/buf_cache.h
- 56-68: `Mgr.push` (Buf/Mgr.lean)
- 74-78: `Tok.uses` (Buf/Mgr.lean)
- 79-85: `Tok.uses` (Buf/Mgr.lean)

## amelie/runtime/base/buf_mgr.h
- 22-28: `Mgr.init` (Buf/Mgr.lean)
- 38-43: `Tok.uses` (Buf/Mgr.lean)

## amelie/runtime/base/bus.h
- 16-22: `St` (Bus/Model.lean)
- 24-32: `init` (Bus/Model.lean)
- 64-73: `Pc` (Bus/Model.lean)
- 67-68: `Reach` (Bus/Model.lean)
- 71: `Reach` (Bus/Model.lean)
- 75-92: `Cpc` (Bus/Model.lean)
- 80: `Reach` (Bus/Model.lean)
- 82-89: `Reach` (Bus/Model.lean)
- 90: `Reach` (Bus/Model.lean)

## amelie/runtime/base/coroutine.h
- 18-37: `Cor` (Coro/Model.lean)
- 33: `Ev` (Coro/Model.lean)
- 39-59: `Cor.zero` (Coro/Model.lean)
- 97-110: `cancelResume` (Coro/Model.lean)
- 102: `Good` (Coro/Model.lean)

## amelie/runtime/base/coroutine_mgr.h
- 16-29: `St` (Coro/Model.lean)
- 27: `Ev` (Coro/Model.lean)
- 31-45: `St.init` (Coro/Model.lean)
- 86-95: `find` (Coro/Model.lean)
- 105-117: `runNext` (Coro/Model.lean)
- 119-153: `create` (Coro/Model.lean)
- 164-171: `resume` (Coro/Model.lean)
- 173-184: `cancelOf` (Coro/Model.lean)

## amelie/runtime/base/event.h
- 17-24: `Ev` (Coro/Model.lean)
- 50-53: `Chain` (Coro/Model.lean)

## amelie/runtime/base/ipc.h
- 22-45: `St` (Bus/Model.lean)
- 35-39: `Reach` (Bus/Model.lean)
- 41-45: `Reach` (Bus/Model.lean)

## amelie/runtime/base/macro.h
- 15: `unlikely` (Buf/Mgr.lean)

## amelie/runtime/base/notify.c
- 15-24: `Cpc` (Bus/Model.lean)
- 19-20: `Reach` (Bus/Model.lean)
- 21: `Reach` (Bus/Model.lean)
- 68-77: `Pc` (Bus/Model.lean)
- 73-74: `Reach` (Bus/Model.lean)
- 75-76: `Reach` (Bus/Model.lean)

## amelie/runtime/base/overflow.h
- 35-40: `addOverflow` (Codec/Arith.lean)
- 42-47: `subOverflow` (Codec/Arith.lean)
- 49-54: `mulOverflow` (Codec/Arith.lean)
- 64-70: `mulAddOverflow` (Codec/Arith.lean)
- 79-85: `digitLoop` (Json/TextModel.lean)

## amelie/runtime/base/poller.c
- 54-89: `Cpc` (Bus/Model.lean)

## amelie/runtime/base/ring.h
- 16-23: `St` (Bus/Model.lean)
- 46-52: `init` (Bus/Model.lean)
- 54-83: `Pc` (Bus/Model.lean)
- 58: `Reach` (Bus/Model.lean)
- 65-67: `Reach` (Bus/Model.lean)
- 70: `Reach` (Bus/Model.lean)
- 70, 98: `place` (Bus/Model.lean)
- 74-76: `Reach` (Bus/Model.lean)
- 82: `Reach` (Bus/Model.lean)
- 85-105: `Cpc` (Bus/Model.lean)
- 94-95: `Reach` (Bus/Model.lean)
- 98: `Reach` (Bus/Model.lean)
- 103: `Reach` (Bus/Model.lean)

## amelie/runtime/base/str.h
- 137-141: `isCase` (Net/Http.lean)
- 139-143: `isCase` (Parse/Lex.lean)
- 139-149: `same` (Catalog/Model.lean)
- 169-183: `cmpS` (Query/Value.lean)
- 169-184: `cmpStr` (Json/Model.lean)
- 194-206: `splitDot` (Net/Auth.lean)
- 270-288: `toint` (Net/Http.lean)
- 273-288: `toInt` (Config/Model.lean)
- 273-289: `strToIntLoop` (Codec/Arith.lean)

## amelie/runtime/base/task.c
- 19-35: `shutdown` (Coro/Model.lean)
- 26-31: `cancelAll` (Coro/Model.lean)
- 69-81: `exit` (Coro/Model.lean)
- 83-84: `St.init` (Coro/Model.lean)
- 87-148: `Cpc` (Bus/Model.lean)
- 96: `init` (Timer/Model.lean)
- 110-112: `Reach` (Bus/Model.lean)
- 114-136: `Reach` (Bus/Model.lean)
- 114-145: `toPoll` (Timer/Model.lean)
- 117-133: `timeout` (Timer/Model.lean)
- 127: `diff` (Timer/Model.lean)
- 139: `Reach` (Bus/Model.lean)
- 140-143: `Reach` (Bus/Model.lean)
- 142, 146: `Reach` (Bus/Model.lean)
- 145: `Reach` (Bus/Model.lean)
- 174-178: `Step` (Coro/Model.lean)

## amelie/runtime/base/throw.h
- 36-41: `eventWait` (Coro/Model.lean)

## amelie/runtime/base/timer_mgr.c
- 15-26: `init` (Timer/Model.lean)
- 43-52: `update` (Timer/Model.lean)
- 54-83: `fire` (Timer/Model.lean)
- 61-71: `timerFires` (Coro/Model.lean)
- 85-98: `cmp` (Timer/Model.lean)
- 100-119: `add` (Timer/Model.lean)
- 117: `Sorts` (Timer/Model.lean)
- 121-138: `remove` (Timer/Model.lean)

## amelie/runtime/base/timer_mgr.h
- 19-28: `Tm` (Timer/Model.lean)
- 30-40: `St` (Timer/Model.lean)
- 50-54: `reset` (Timer/Model.lean)
- 104-109: `sleep` (Timer/Model.lean)

## amelie/runtime/base/wait.h
- 14-22: `signalAll` (Coro/Model.lean)
- 20-21: `wake` (Coro/Model.lean)
- 24-29: `timerFires` (Coro/Model.lean)
- 31-80: `waitOn` (Coro/Model.lean)
- 39: `Good` (Coro/Model.lean)
- 41: `Pc` (Coro/Model.lean)
- 42-43: `back` (Coro/Model.lean)
- 47-74: `sleep` (Timer/Model.lean)
- 57: `Cor` (Coro/Model.lean)
- 63: `Good` (Coro/Model.lean)
- 69: `Pc` (Coro/Model.lean)
- 70-79: `back` (Coro/Model.lean)

## amelie/runtime/json/decode.h
- 18-31: `Kind` (Catalog/File.lean)
- 39-169: `readKeys` (Catalog/File.lean)
- 39-167: `decodeObj` (Net/Auth.lean)
- 44-160: `decodeLoop` (Net/Auth.lean)
- 44-161: `objLoop` (Catalog/File.lean)
- 49-160: `readField` (Catalog/File.lean)
- 57-149: `readVal` (Catalog/File.lean)
- 76-94: `readWant` (Net/Auth.lean)

## amelie/runtime/json/encode.h
- 14-150: `enc` (Json/Model.lean)
- 74-86: `writeString32` (Json/TextModel.lean)

## amelie/runtime/json/escape.h
- 14-70: `unescape` (Json/TextModel.lean)
- 36-64: `unescapeChar` (Json/TextModel.lean)
- 72-106: `escape` (Json/TextModel.lean)
- 72-106: `escapeChar` (Json/TextModel.lean)

## amelie/runtime/json/json.h
- 131-158: `readInteger` (Json/Model.lean)
- 169-202: `writeInteger` (Json/Model.lean)
- 222-248: `readRaw` (Json/Model.lean)
- 246-247: `takeRaw` (Json/Model.lean)
- 268-299: `writeRaw` (Json/Model.lean)
- 363-374: `readBool` (Json/Model.lean)
- 385-394: `writeBool` (Json/Model.lean)
- 410-426: `readReal` (Json/Model.lean)
- 436-451: `writeReal` (Json/Model.lean)
- 439: `inFloatRange` (Json/Model.lean)
- 472-478: `readObj` (Json/Model.lean)
- 480-487: `readObjEnd` (Json/Model.lean)
- 530-536: `readArray` (Json/Model.lean)
- 538-545: `readArrayEnd` (Json/Model.lean)
- 582-588: `readNull` (Json/Model.lean)

## amelie/runtime/json/json_compare.h
- 30-44: `cmpKey` (Row/Model.lean)
- 44-156: `compare` (Json/Model.lean)
- 46-155: `cmpLoop` (Json/Model.lean)
- 50-151: `cmpStep` (Json/Model.lean)
- 52-150: `Cls` (Json/Model.lean)

## amelie/runtime/json/json_export.c
- 17-128: `exportAs` (Json/TextModel.lean)
- 18-128: `dec` (Json/Model.lean)
- 20-120: `Cls` (Json/Model.lean)
- 42: `escapeChar` (Json/TextModel.lean)
- 49: `intText` (Json/TextModel.lean)
- 64-70: `exportList` (Json/TextModel.lean)
- 65-71: `decList` (Json/Model.lean)
- 82-98: `exportFields` (Json/TextModel.lean)
- 84-85: `indent` (Json/TextModel.lean)
- 108-120: `decFields` (Json/Model.lean)
- 130-140: `export_` (Json/TextModel.lean)

## amelie/runtime/json/json_op.h
- 14-65: `skip` (Json/Model.lean)
- 17-64: `skipLoop` (Json/Model.lean)
- 20-63: `skipStep` (Json/Model.lean)
- 20-63: `Cls` (Json/Model.lean)
- 20-63: `clsOf` (Json/Model.lean)
- 67-73: `sizeof` (Json/Model.lean)
- 75-90: `objFind` (Json/Model.lean)
- 81-88: `objFindLoop` (Json/Model.lean)
- 92-119: `objFindPath` (Json/Model.lean)
- 98-106: `splitDot` (Json/Model.lean)
- 126-138: `objSize` (Json/Model.lean)
- 131-136: `objSizeLoop` (Json/Model.lean)
- 140-155: `arrayFind` (Json/Model.lean)
- 147-153: `arrayFindLoop` (Json/Model.lean)
- 157-172: `arrayLast` (Json/Model.lean)
- 163-170: `arrayLastLoop` (Json/Model.lean)
- 180-193: `arraySize` (Json/Model.lean)
- 187-191: `arraySizeLoop` (Json/Model.lean)

## amelie/runtime/json/json_parser.c
- 42-48: `St` (Json/TextModel.lean)
- 63-70: `next` (Json/TextModel.lean)
- 73-85: `keyword` (Json/TextModel.lean)
- 87-124: `stringRead` (Json/TextModel.lean)
- 93-120: `stringLoop` (Json/TextModel.lean)
- 135-188: `number` (Json/TextModel.lean)
- 141: `isMinus` (Json/TextModel.lean)
- 146-160: `digitLoop` (Json/TextModel.lean)
- 168: `escapeChar` (Json/TextModel.lean)
- 190-236: `const` (Json/TextModel.lean)
- 196-204: `encodeString` (Json/TextModel.lean)
- 238-403: `parse` (Json/TextModel.lean)
- 298-402: `parseLoop` (Json/TextModel.lean)
- 300-402: `parseStep` (Json/TextModel.lean)

## amelie/runtime/lib/arg.h
- 14-39: `argParse` (Config/Model.lean)

## amelie/runtime/lib/avg.h
- 16-23: `ASt` (Query/Agg.lean)
- 31-36: `compute` (Query/Agg.lean)
- 45-49: `avgInt` (Query/Agg.lean)

## amelie/runtime/lib/base64.c
- 18-50: `std` (Codec/Base64.lean)
- 52-92: `encLoop` (Codec/Base64.lean)
- 94-140: `decLoop` (Codec/Base64.lean)

## amelie/runtime/lib/base64url.c
- 18-82: `url` (Codec/Base64.lean)
- 84-122: `encLoop` (Codec/Base64.lean)
- 124-166: `decLoop` (Codec/Base64.lean)

## amelie/runtime/lib/crc.c
- 29-63: `t32` (Crc/Tables.lean)
- 65-99: `t40` (Crc/Tables.lean)
- 101-135: `t48` (Crc/Tables.lean)
- 137-171: `t56` (Crc/Tables.lean)
- 173-207: `t64` (Crc/Tables.lean)
- 209-243: `t72` (Crc/Tables.lean)
- 245-279: `t80` (Crc/Tables.lean)
- 281-315: `t88` (Crc/Tables.lean)
- 326-364: `soft` (Crc/Model.lean)
- 336: `softByte` (Crc/Model.lean)
- 341-358: `soft8s` (Crc/Model.lean)
- 343-357: `soft8` (Crc/Model.lean)
- 382-394, 406-423: `sse` (Crc/Model.lean)
- 412-420: `sse8s` (Crc/Model.lean)

## amelie/runtime/lib/date.c
- 23-28: `dateValidate` (Func/Date.lean)
- 30-43: `parsePart` (Func/Date.lean)
- 45-81: `dateSet` (Func/Date.lean)
- 90-99: `dateGet` (Func/Date.lean)
- 107-118: `dateSetGregorian` (Func/Date.lean)
- 120-133: `dateGetGregorian` (Func/Date.lean)
- 135-142: `dateAdd` (Func/Date.lean)
- 144-151: `dateSub` (Func/Date.lean)
- 153-176: `DateField` (Func/Date.lean)

## amelie/runtime/lib/date.h
- 14-18: `dateMin` (Func/Date.lean)

## amelie/runtime/lib/hash.h
- 14-26: `fnv` (Query/Set.lean)
- 28-40: `fnvLower` (Net/PropsTable.lean)
- 42-49: `scramble` (Row/Model.lean)
- 51-84: `murmur` (Row/Model.lean)
- 57-64: `murmurBlocks` (Row/Model.lean)

## amelie/runtime/lib/hash_table.h
- 70-88: `htSet` (Net/Table.lean)
- 70-88: `stopFree` (Net/Table.lean)
- 90-97: `htDelete` (Net/Table.lean)
- 99-123: `htGet` (Net/Table.lean)
- 99-123: `stopFind` (Net/Table.lean)
- 125-155: `htReserve` (Net/Table.lean)

## amelie/runtime/lib/id_mgr.h
- 47-63: `add` (Store/IdMgr.lean)
- 65-81: `delete` (Store/IdMgr.lean)
- 83-101: `copy` (Store/IdMgr.lean)
- 103-115: `min` (Store/IdMgr.lean)
- 117-129: `max` (Store/IdMgr.lean)
- 150-166: `findLoop` (Store/IdMgr.lean)
- 168-186: `next` (Store/IdMgr.lean)
- 188-220: `gc` (Store/IdMgr.lean)

## amelie/runtime/lib/interval.c
- 34-144: `ivUnit` (Func/Interval.lean)
- 146-205: `ivSetLoop` (Func/Interval.lean)
- 169-177: `ivDigits` (Func/Interval.lean)
- 207-281: `ivGet` (Func/Interval.lean)
- 283-293: `ivCompare` (Func/Interval.lean)
- 295-316: `fits32` (Func/Interval.lean)
- 318-389: `IvField` (Func/Interval.lean)
- 391-443: `ivTrunc` (Func/Interval.lean)
- 445-488: `ivExtract` (Func/Interval.lean)

## amelie/runtime/lib/interval.h
- 16-21: `Iv` (Func/Interval.lean)

## amelie/runtime/lib/misc.h
- 20-24: `cmpInt` (Json/Model.lean)
- 20-30: `cmpI` (Query/Value.lean)
- 38-42: `cmpDouble` (Json/Model.lean)
- 38-42: `cmpD` (Query/Value.lean)

## amelie/runtime/lib/rbtree.c
- 77-120: `fixup` (Index/Rbtree.lean)
- 87, 244-245: `T.color` (Index/Rbtree.lean)
- 122-140: `rbSet` (Index/Rbtree.lean)
- 162-303: `rbRemove` (Index/Rbtree.lean)
- 177-179: `minSplit` (Index/Rbtree.lean)
- 217-222: `delFinish` (Index/Rbtree.lean)
- 224-300: `fixDel` (Index/Rbtree.lean)

## amelie/runtime/lib/rbtree.h
- 17-22: `T` (Index/Rbtree.lean)
- 40-63: `find` (Index/Tree.lean)

## amelie/runtime/lib/separator.h
- 16-26: `Tok` (Cli/Model.lean)
- 46-50: `line` (Cli/Model.lean)
- 61-80: `skip` (Cli/Model.lean)
- 65-66: `skipSpace` (Cli/Model.lean)
- 75-76, 86-87: `skipLine` (Cli/Model.lean)
- 98-113: `skipString` (Cli/Model.lean)
- 117-137: `matchKw` (Cli/Model.lean)
- 139-216: `next` (Cli/Model.lean)
- 148-212: `at_` (Cli/Model.lean)
- 150-198: `wordOf` (Cli/Model.lean)
- 160-174: `afterIf` (Cli/Model.lean)
- 219-330: `read` (Cli/Model.lean)
- 219-302: `readPos` (Cli/Model.lean)
- 262-298: `readLoop` (Cli/Model.lean)

## amelie/runtime/lib/timestamp.c
- 29-42: `parsePart` (Func/Date.lean)
- 29-42: `tsPart` (Func/Timestamp.lean)
- 44-187: `tsParse` (Func/Timestamp.lean)
- 62-66: `tsField` (Func/Timestamp.lean)
- 96-130: `tsFraction` (Func/Timestamp.lean)
- 98-108: `usDigits` (Func/Timestamp.lean)
- 132-183: `tsZone` (Func/Timestamp.lean)
- 189-213: `tsSet` (Func/Timestamp.lean)
- 215-220: `tsValidate` (Func/Timestamp.lean)
- 222-234: `tsSetDate` (Func/Timestamp.lean)
- 236-248: `tsSet` (Func/Timestamp.lean)
- 250-260: `tsSetUnix` (Func/Timestamp.lean)
- 262-301: `tsGetUnix` (Func/Timestamp.lean)
- 303-357: `tsGet` (Func/Timestamp.lean)
- 359-406: `tsAdd` (Func/Timestamp.lean)
- 408-455: `tsSub` (Func/Timestamp.lean)
- 516-556: `tsTrunc` (Func/Timestamp.lean)
- 558-634: `tsExtract` (Func/Timestamp.lean)
- 636-645: `tsDate` (Func/Timestamp.lean)

## amelie/runtime/lib/timestamp.h
- 16-17: `HasTy` (Query/PropsPath.lean)
- 16-20: `tsMin` (Func/Timestamp.lean)
- 22-28: `Tm` (Func/Timestamp.lean)

## amelie/runtime/lib/timezone.c
- 120-161: `zoneMatch` (Func/Zone.lean)
- 126-151: `zoneLoop` (Func/Zone.lean)

## amelie/runtime/lib/timezone_mgr.c
- 70-93: `zoneAdd` (Net/PropsTable.lean)
- 146-163: `zoneFind` (Net/PropsTable.lean)

## amelie/runtime/lib/utf8.h
- 14-26: `utf8Sizeof` (Codec/Like.lean)
- 14-26: `utf8Size` (Func/Text.lean)
- 28-73: `utf8Next` (Json/TextModel.lean)
- 80-84: `nextChr` (Func/Text.lean)
- 86-92: `lastChr` (Func/Text.lean)
- 94-103: `utf8Len` (Func/Text.lean)
- 105-111: `utf8At` (Func/Text.lean)

## amelie/runtime/lib/uuid.c
- 19-27: `Uuid` (Codec/Uuid.lean)
- 29-92: `uuidSet` (Codec/Uuid.lean)
- 41-91: `uuidLoop` (Codec/Uuid.lean)
- 72-87: `hexStep` (Codec/Uuid.lean)
- 74-84: `hexVal` (Codec/Uuid.lean)
- 102-110: `uuidGet` (Codec/Uuid.lean)

## amelie/runtime/lib/uuid.h
- 37-44: `cmpKey` (Row/Model.lean)

## amelie/runtime/lib/vector.h
- 16-20: `vectorBytes` (Row/Model.lean)

## amelie/runtime/os/file.h
- 82-86: `Wal.create` (Wal/Model.lean)
- 249-262: `preadBuf` (Wal/Model.lean)

## amelie/runtime/os/readahead.h
- 16-22: `Conn` (Net/Http.lean)
- 46-67: `raRead` (Net/Http.lean)
- 69-74: `pushback` (Net/Http.lean)

## amelie/runtime/os/vfs.c
- 143-157: `pread` (Object/File.lean)

## amelie/runtime/runtime/access.h
- 18-22: `Acc` (Lock/Model.lean)
- 70-100: `collect` (Lock/Model.lean)
- 86-108: `accessAdd` (Lock/Model.lean)
- 120-128: `accessSort` (Lock/Model.lean)
- 130-141: `accessMerge` (Lock/Model.lean)

## amelie/runtime/runtime/config.c
- 30-75: `configDefs` (Config/Model.lean)
- 63: `changes` (Wal/Model.lean)
- 79-90: `saveText` (Config/Model.lean)

## amelie/runtime/runtime/global.h
- 19-24: `saveState` (Config/Model.lean)

## amelie/runtime/runtime/lock.h
- 16-28: `LockRec` (Lock/Model.lean)

## amelie/runtime/runtime/lock_id.h
- 14-23: `Mode` (Lock/Model.lean)
- 14-23: `Mode.rank` (Lock/Model.lean)

## amelie/runtime/runtime/lock_mgr.h
- 56-82: `resolve` (Lock/Model.lean)
- 84-119: `Sys.lockOf` (Lock/Model.lean)
- 121-150: `Sys.lock` (Lock/Model.lean)
- 121-150: `Acc` (Lock/Model.lean)
- 121-150: `lockId` (ServiceLock/Model.lean)
- 124-125, 178-179: `Mode` (Lock/Model.lean)
- 154-173: `statement` (Lock/Model.lean)
- 175-227: `Sys.unlock` (Lock/Model.lean)
- 194-226: `Sys.release` (Lock/Model.lean)
- 202-219: `Sys.wake` (Lock/Model.lean)
- 207-214: `Sys.grant` (Lock/Model.lean)

## amelie/runtime/runtime/opt.h
- 16-28: `Def` (Config/Model.lean)
- 30-36: `Ty` (Config/Model.lean)
- 38-49: `Opt` (Config/Model.lean)
- 128-135: `Ep.set` (Net/Uri.lean)
- 189-236: `setJson` (Config/Model.lean)
- 238-304: `setText` (Config/Model.lean)
- 306-328: `encode` (Config/Model.lean)

## amelie/runtime/runtime/opts.c
- 38-62: `define` (Config/Model.lean)
- 94-103: `update` (Config/Model.lean)
- 105-136: `set` (Config/Model.lean)
- 110-134: `setLoop` (Config/Model.lean)
- 124-126, 181-183: `guarded` (Config/Model.lean)
- 138-147: `set` (Config/Model.lean)
- 146-191: `setArgv` (Config/Model.lean)
- 152-189: `setArg` (Config/Model.lean)
- 193-209: `persistent` (Config/Model.lean)
- 198-206: `fieldsOf` (Config/Model.lean)

## amelie/runtime/runtime/relation.h
- 18-29: `Sys` (Lock/Model.lean)

## amelie/runtime/runtime/runtime.h
- 42-46: `Tok.uses` (Buf/Mgr.lean)
- 68-79: `eventWait` (Coro/Model.lean)
- 68-79: `sleep` (Timer/Model.lean)
- 69-79: `Pc` (Coro/Model.lean)
- 92-102: `join` (Coro/Model.lean)
- 104-111: `kill` (Coro/Model.lean)
- 113-124: `kill` (Coro/Model.lean)
- 127: `sleep` (Timer/Model.lean)

## amelie/runtime/runtime/state.c
- 30-60: `stateDefs` (Config/Model.lean)
- 63-84: `saveTo` (Config/Model.lean)
- 66-77: `saveText` (Config/Model.lean)
- 86-108: `saveSteps` (Config/Model.lean)
- 96-101: `rename` (Config/Model.lean)

## amelie/server/auth/auth.c
- 32-37: `authSync` (Net/Auth.lean)
- 41-118: `authRun` (Net/Auth.lean)
- 70-103: `check` (Net/Auth.lean)

## amelie/server/auth/auth.h
- 16-21: `Auth` (Net/Auth.lean)

## amelie/server/auth/auth_cache.c
- 45-49: `prepare` (Net/Auth.lean)
- 57-71: `cacheAdd` (Net/Auth.lean)
- 88-96: `cacheFind` (Net/Auth.lean)

## amelie/server/auth/auth_cache.h
- 17-23: `Entry` (Net/Auth.lean)

## amelie/server/auth/jwt.c
- 16-67: `jwtCreate` (Net/Auth.lean)
- 27-29: `headerText` (Net/Auth.lean)

## amelie/server/auth/jwt_decode.c
- 48-86: `jwtDecode` (Net/Auth.lean)
- 88-123: `decodeHeader` (Net/Auth.lean)
- 98-122: `checkHeader` (Net/Auth.lean)
- 125-149: `decodePayload` (Net/Auth.lean)
- 160-179: `validate` (Net/Auth.lean)

## amelie/server/auth/jwt_encode.c
- 38-66: `checkHeader` (Net/Auth.lean)
- 70-98: `jwtEncode` (Net/Auth.lean)

## amelie/server/client/client.c
- 32: `readContent` (Net/Http.lean)

## amelie/server/http/endpoint.c
- 21-52: `strKeys` (Net/Uri.lean)

## amelie/server/http/endpoint.h
- 23-57: `Ep` (Net/Uri.lean)

## amelie/server/http/http.c
- 45-56: `httpFind` (Net/Http.lean)
- 80-115: `headerLoop` (Net/Http.lean)
- 99-105: `findEnd` (Net/Http.lean)
- 117-223: `Head` (Net/Http.lean)
- 117-224: `httpRead` (Net/Http.lean)
- 147-165: `field` (Net/Http.lean)
- 167-178: `line` (Net/Http.lean)
- 181-217: `headers` (Net/Http.lean)
- 226-262: `readContent` (Net/Http.lean)
- 243-258: `contentLoop` (Net/Http.lean)
- 267-343: `beginRequest` (Net/Http.lean)
- 283-308: `target` (Net/Http.lean)
- 345-387: `beginReply` (Net/Http.lean)

## amelie/server/http/uri.c
- 29-53: `parseProtocol` (Net/Uri.lean)
- 55-81: `parseUser` (Net/Uri.lean)
- 83-160: `parseHost` (Net/Uri.lean)
- 88-118: `parseName` (Net/Uri.lean)
- 123-160: `parsePort` (Net/Uri.lean)
- 128-137: `portLoop` (Net/Uri.lean)
- 144-160: `hostEnd` (Net/Uri.lean)
- 172-209: `parsePath` (Net/Uri.lean)
- 211-224: `hexVal` (Net/Uri.lean)
- 226-247: `pctDecode` (Net/Uri.lean)
- 249-294: `argSet` (Net/Uri.lean)
- 296-346: `parseArgs` (Net/Uri.lean)
- 306-345: `argsLoop` (Net/Uri.lean)
- 348-374: `uriParse` (Net/Uri.lean)
- 376-416: `uriParseEndpoint` (Net/Uri.lean)
- 418-428: `exportArg` (Net/Http.lean)
- 418-429: `exportArgs` (Net/Uri.lean)
- 431-497: `uriExport` (Net/Uri.lean)

## amelie/server/user/user_cache.h
- 39-48: `findUser` (Config/Model.lean)
- 39-48: `findUser` (Net/Auth.lean)
- 65-92: `sync` (Config/Model.lean)
- 67-93: `userSync` (Net/Auth.lean)
- 82-89: `addUser` (Config/Model.lean)
- 94-105: `usersDoc` (Config/Model.lean)

## amelie/server/user/user_config.h
- 16-22: `User` (Config/Model.lean)
- 54-62: `sync` (Config/Model.lean)
- 64-77: `readUser` (Config/Model.lean)
- 79-92: `userJ` (Config/Model.lean)

## amelie/server/user/user_mgr.c
- 27-38: `dumpUsers` (Config/Model.lean)
- 40-59: `openUsers` (Config/Model.lean)

## amelie/sync/backup/backup.c
- 55-93: `send` (Backup/Model.lean)
- 110: `send` (Backup/Model.lean)

## amelie/sync/backup/restore.c
- 193-195: `cut` (Backup/Model.lean)
- 279-303: `Fetch` (Backup/Model.lean)

## amelie/sync/repl/repl.c
- 48-66: `replOpen` (Config/Model.lean)

## amelie/sync/repl/streamer.h
- 16-28: `Stream` (Repl/Model.lean)

## amelie/system/backend/pod.c
- 46: `created` (Part/HeapProofs.lean)
- 142-160: `Pod.run` (Part/Model.lean)

## amelie/system/frontend/frontend_client.c
- 40-60: `refused` (Net/Auth.lean)
- 119-186: `serve` (Net/Http.lean)
- 119-138: `Turn` (Net/Http.lean)

## amelie/system/session/session.c
- 56-70: `HomeOk` (Catalog/Reach.lean)
- 101-102: `statement` (Lock/Model.lean)
- 152-254: `session` (Catalog/Model.lean)
- 199-203: `aborted` (Catalog/Model.lean)
- 320-322: `statement` (Lock/Model.lean)
- 343-346: `Sess.Step` (Lock/Model.lean)

## amelie/system/system/repo.c
- 25: `fresh` (Config/Model.lean)
- 29-37, 257-302: `bootDirs` (Config/Model.lean)
- 72-110: `versionDoc` (Config/Model.lean)
- 112-148: `versionOpen` (Config/Model.lean)
- 150-173: `listenDoc` (Config/Model.lean)
- 175-198: `bootstrap` (Config/Model.lean)
- 235-302: `start` (Config/Model.lean)

## amelie/system/system/system.c
- 26-58: `miss` (Catalog/Model.lean)
- 75-84: `udfUses` (Catalog/Model.lean)
- 160-168: `saveState` (Config/Model.lean)
- 227-243: `restart` (Recover/Model.lean)

## amelie/vm/executor/commit.c
- 20-29: `queueAdd` (Exec/Model.lean)
- 24-28: `popAll` (Exec/Model.lean)
- 46-56: `receive` (Exec/Model.lean)
- 58-86: `finish` (Exec/Model.lean)

## amelie/vm/executor/dispatch_mgr.h
- 108-130: `overlaps` (Exec/Model.lean)

## amelie/vm/executor/dtr.h
- 16-32: `Dtr` (Exec/Model.lean)

## amelie/vm/executor/dtr_group.h
- 16-22: `Group` (Exec/Model.lean)
- 50-54, 78-88: `popAll` (Exec/Model.lean)
- 56-76: `groupAdd` (Exec/Model.lean)

## amelie/vm/executor/dtr_queue.h
- 18: `Ex.init` (Exec/Model.lean)
- 23-29: `Ex.init` (Exec/Model.lean)
- 41-56: `gc` (Exec/Model.lean)
- 54-92: `queueAdd` (Exec/Model.lean)

## amelie/vm/executor/executor.h
- 19: `Ex.init` (Exec/Model.lean)
- 20: `Ex.init` (Exec/Model.lean)
- 23-29: `Ex.init` (Exec/Model.lean)
- 37-77: `attach` (Exec/Model.lean)
- 108-146: `finish` (Exec/Model.lean)
- 133-141: `groupMin` (Exec/Model.lean)

## amelie/vm/func/fn_cast.c
- 334-340: `dateToTs` (Func/Timestamp.lean)

## amelie/vm/func/fn_math.c
- 23-35: `abs` (Func/Choose.lean)
- 34: `fnAbs` (Codec/Arith.lean)
- 60-85: `sign` (Func/Choose.lean)
- 118-129: `mod` (Func/Choose.lean)
- 131-142: `fmod` (Func/Choose.lean)
- 539-559: `greatest` (Func/Choose.lean)
- 543-554: `greatestLoop` (Func/Choose.lean)
- 561-581: `least` (Func/Choose.lean)
- 565-576: `leastLoop` (Func/Choose.lean)

## amelie/vm/func/fn_misc.c
- 40: `sleep` (Timer/Model.lean)

## amelie/vm/func/fn_null.c
- 24-36: `coalesce` (Func/Choose.lean)
- 38-48: `nullif` (Func/Choose.lean)

## amelie/vm/func/fn_string.c
- 127-140, 160-173: `mapChrs` (Func/Text.lean)
- 173-221: `substr` (Func/Text.lean)
- 223-266: `strpos` (Func/Text.lean)
- 245-263: `strposLoop` (Func/Text.lean)
- 268-325: `replace` (Func/Text.lean)
- 293-320: `replaceLoop` (Func/Text.lean)
- 327-351: `ltrimLoop` (Func/Text.lean)
- 336-346: `inFilter` (Func/Text.lean)
- 353-381: `rtrimLoop` (Func/Text.lean)
- 383-420: `trim` (Func/Text.lean)

## amelie/vm/func/fn_time.c
- 58-114: `dateBin` (Func/Timestamp.lean)
- 116-168: `dateTrunc` (Func/Timestamp.lean)

## amelie/vm/func/function_mgr.c
- 42-58: `funcAdd` (Net/PropsTable.lean)
- 69-84: `funcFind` (Net/PropsTable.lean)

## amelie/vm/output/output.h
- 24-32: `Out` (Output/Model.lean)
- 58-64: `ensure` (Output/Model.lean)

## amelie/vm/output/output_json.c
- 20-36: `rowArray` (Output/Model.lean)
- 26-33: `arrayCells` (Output/Model.lean)
- 38-90: `rowObj` (Output/Model.lean)
- 45-68: `objCells` (Output/Model.lean)
- 92-132: `writeJson` (Output/Model.lean)
- 104-117: `rowsText` (Output/Model.lean)
- 112-115, 126-129: `rowText` (Output/Model.lean)
- 134-177: `writeDoc` (Output/Model.lean)
- 179-206: `writeError` (Output/Model.lean)
- 190-202: `errorText` (Output/Model.lean)

## amelie/vm/set/agg.c
- 19-122: `compute` (Query/Agg.lean)
- 129: `writeFrom` (Query/Agg.lean)
- 130-166: `writeCol` (Query/Agg.lean)
- 136-157: `Sel.crash` (Query/Select.lean)
- 170-219: `merge` (Query/Agg.lean)
- 221-254: `mergeSet` (Query/Agg.lean)
- 241-247: `mergeCols` (Query/Agg.lean)
- 256-302: `mergeDist` (Query/Agg.lean)
- 304-337: `selectAggs` (Query/Agg.lean)
- 314-324: `mergeTwo` (Query/Agg.lean)

## amelie/vm/set/agg.h
- 16-28: `AggTy` (Query/Agg.lean)
- 30-34: `Agg` (Query/Agg.lean)

## amelie/vm/set/all.c
- 131-232: `allRows` (Query/Logic.lean)
- 234-311: `vAll` (Query/Logic.lean)

## amelie/vm/set/any.c
- 19-129: `anyRows` (Query/Logic.lean)
- 131-232: `anyRows` (Query/Logic.lean)
- 234-311: `vAny` (Query/Logic.lean)

## amelie/vm/set/exists.h
- 14-24: `vExists` (Query/Logic.lean)

## amelie/vm/set/in.c
- 19-70: `inLoop` (Compile/Model.lean)
- 19-70: `vIn` (Query/Logic.lean)
- 28-63: `inItems` (Query/Logic.lean)
- 39-52: `inRows` (Query/Logic.lean)

## amelie/vm/set/set.c
- 43-66: `HSet.create` (Query/Set.lean)
- 121-175: `HSet.upsert` (Query/Set.lean)
- 125-133: `HSet.grow` (Query/Set.lean)
- 136-140: `keysHash` (Query/Set.lean)
- 146-156: `stopUpsert` (Query/Set.lean)

## amelie/vm/set/set.h
- 16-26: `HSet` (Query/Set.lean)

## amelie/vm/set/set_hash.h
- 17-27: `HSet` (Query/Set.lean)
- 61-73: `hashPut` (Query/Set.lean)
- 75-89: `hashResize` (Query/Set.lean)
- 81-86: `hashPutAll` (Query/Set.lean)
- 91-139: `Val.hashed` (Query/Set.lean)

## amelie/vm/set/set_iterator.h
- 29-40: `UPos.advance` (Query/Union.lean)

## amelie/vm/set/union.c
- 46-47: `UIt.open` (Query/Union.lean)

## amelie/vm/set/union.h
- 17-24: `UType` (Query/Union.lean)

## amelie/vm/set/union_iterator.h
- 18-27: `UPos` (Query/Union.lean)
- 34-100: `stepWith` (Query/Union.lean)
- 38-42, 64-68: `UPos.advance` (Query/Union.lean)
- 46-55: `pickFirst` (Query/Union.lean)
- 72-96: `pickLeast` (Query/Union.lean)
- 102-124: `stepDistinct` (Query/Union.lean)
- 105-110: `distinctFirst` (Query/Union.lean)
- 114-122: `skipEqual` (Query/Union.lean)
- 248-264: `UIt.next` (Query/Union.lean)
- 279-312: `UIt.open` (Query/Union.lean)
- 306-308: `UIt.skip` (Query/Union.lean)
- 314-358: `UIt.open` (Query/Union.lean)
- 338-355: `stepOf` (Query/Union.lean)

## amelie/vm/value/compare.h
- 14-44: `valueIsTrue` (Query/Logic.lean)
- 14-44: `isTrue` (Compile/Model.lean)
- 14-44: `isTrue` (Dml/Model.lean)
- 31-33: `isTrue` (Dml/Model.lean)
- 47-84: `vcompare` (Compile/Model.lean)
- 47-84: `valueCompare` (Query/Value.lean)
- 86-98: `keysCompare` (Query/Value.lean)
- 100-122: `keysSame` (Query/Set.lean)

## amelie/vm/value/json.h
- 148-235: `cellText` (Output/Model.lean)
- 208-216: `vecText` (Output/Model.lean)

## amelie/vm/value/json_array.h
- 29-42: `arrayAppend` (Json/Update.lean)
- 44-57: `arrayPush` (Json/Update.lean)
- 59-71: `arrayPop` (Json/Update.lean)
- 73-84: `arrayPopBack` (Json/Update.lean)
- 86-118: `arrayPut` (Json/Update.lean)
- 99-110: `putLoop` (Json/Update.lean)
- 120-144: `arrayRemove` (Json/Update.lean)
- 129-137: `removeLoop` (Json/Update.lean)

## amelie/vm/value/like.c
- 18-96: `likeLoop` (Func/Text.lean)
- 19-97: `like` (Codec/Like.lean)
- 31-96: `likeLoop` (Codec/Like.lean)
- 47-48: `skipWild` (Codec/Like.lean)
- 60-73: `findLoop` (Codec/Like.lean)
- 62-71: `likeFind` (Func/Text.lean)

## amelie/vm/value/row.c
- 19-47: `rowCreate` (Row/Model.lean)
- 20-48: `createRow` (Dml/Model.lean)
- 25-31: `totalSize` (Row/Model.lean)
- 36-45: `fillLoop` (Row/Model.lean)
- 49-165: `rowCreateKey` (Row/Model.lean)
- 49-158: `createKey` (Query/Path.lean)
- 54-78: `keySizes` (Row/Model.lean)
- 81-162: `keyCells` (Row/Model.lean)
- 95-160: `keyBytes` (Row/Model.lean)
- 95-155: `keyPart` (Query/Path.lean)
- 195-215: `storedSize` (Row/Model.lean)
- 211-287: `rowUpdate` (Row/Model.lean)
- 222-284: `rowUpdate` (Dml/Model.lean)
- 223-284: `updateCells` (Row/Model.lean)
- 223-284: `fillLoop` (Row/Model.lean)
- 246: `sampleKeys` (Row/Props.lean)
- 246: `encode` (Row/Model.lean)
- 246: `cell` (Dml/Model.lean)

## amelie/vm/value/row.h
- 17-44: `identityOf` (Insert/Model.lean)
- 37-47: `newId` (Seq/Model.lean)

## amelie/vm/value/stack.h
- 66-73: `VM.popn` (Compile/Model.lean)

## amelie/vm/value/update.c
- 51-72: `updateRead` (Json/Update.lean)
- 58-66: `readName` (Json/Update.lean)
- 74-110: `unsetNext` (Json/Update.lean)
- 87-108: `unsetLoop` (Json/Update.lean)
- 112-167: `setNext` (Json/Update.lean)
- 125-153: `setLoop` (Json/Update.lean)
- 169-178: `updateSet` (Json/Update.lean)
- 180-189: `updateUnset` (Json/Update.lean)

## amelie/vm/value/value.h
- 15-39: `rawInt` (Query/Path.lean)
- 15-39: `Val` (Query/Value.lean)
- 15-39: `Val` (Compile/Model.lean)
- 20: `fInt` (Compile/Model.lean)
- 47-69: `Cell.free` (Compile/Model.lean)
- 71-76: `VM.reset` (Compile/Model.lean)
- 78-84: `VM.move` (Compile/Model.lean)
- 93-200: `VM.put` (Compile/Model.lean)

## amelie/vm/value/value_data.h
- 14-50: `dataSize` (Row/Model.lean)
- 22-23, 59-60: `deref` (Row/Model.lean)
- 52-142: `createCell` (Dml/Model.lean)
- 52-142: `encode` (Row/Model.lean)
- 52-142: `cell` (Dml/Model.lean)
- 55-63: `storeRow` (Insert/Model.lean)
- 62: `sampleKeys` (Row/Props.lean)
- 76-140: `encodeTy` (Row/Model.lean)
- 84: `sampleKeys` (Row/Props.lean)
- 104: `Val` (Row/Model.lean)

## amelie/vm/value/value_hash.h
- 14-46: `hashable` (Query/Path.lean)
- 14-45: `valueHashBytes` (Row/Model.lean)
- 47-60: `valueHashRefs` (Row/Model.lean)
- 54-55: `deref` (Row/Model.lean)
- 62-76: `valueHashRow` (Row/Model.lean)
- 78-92: `valueHashKeys` (Row/Model.lean)

## amelie/vm/vm/command.c
- 24-100: `shard` (Insert/Model.lean)
- 50-67: `addReq` (Insert/Model.lean)
- 286-330: `partRegs` (Query/Select.lean)
- 378-425: `stepX` (Compile/ScanModel.lean)
- 469, 494, 533: `created` (Part/HeapProofs.lean)
- 474-516: `upsertLoop` (Dml/Model.lean)
- 486-512: `upsertRow` (Dml/Model.lean)
- 497-512: `atRow` (Dml/Model.lean)
- 518-524: `deleteBody` (Dml/Model.lean)
- 526-538: `updated` (Dml/Model.lean)
- 526-538: `updateBody` (Dml/Model.lean)
- 541-556: `storeGenerated` (Insert/Model.lean)

## amelie/vm/vm/command_utility.c
- 63: `jwtCreate` (Net/Auth.lean)
- 71-177: `exec` (Config/Model.lean)
- 246-250: `Acc` (Lock/Model.lean)

## amelie/vm/vm/vm.c
- 425-450, 480-483: `Cell` (Compile/Model.lean)
- 441-450: `Cond.selects` (Query/Logic.lean)
- 452-468: `scanRows` (Query/Union.lean)
- 452-473, 1535-1540, 1631-1636: `stepX` (Compile/ScanModel.lean)
- 485-612: `Cell` (Compile/Model.lean)
- 507-515: `pushValues` (Dml/Model.lean)
- 618-671: `Cell` (Compile/Model.lean)
- 643-651: `Cell` (Compile/Model.lean)
- 673-677: `Cell` (Compile/Model.lean)
- 679-688: `readExcluded` (Dml/Model.lean)
- 697-730: `Cell` (Compile/Model.lean)
- 704-707: `vIsNull` (Query/Logic.lean)
- 709-716: `vAnd` (Query/Logic.lean)
- 718-728: `vOr` (Query/Logic.lean)
- 730-736: `vNot` (Query/Logic.lean)
- 732-1470: `Opc.frees` (Compile/Model.lean)
- 732-1470: `execOp` (Compile/Model.lean)
- 747-750: `cshl` (Codec/Arith.lean)
- 752-755: `cshr` (Codec/Arith.lean)
- 757-760, 1328-1344: `Cell` (Compile/Model.lean)
- 763-1095: `opCmp` (Query/Compare.lean)
- 763-1095: `vCmp` (Query/Logic.lean)
- 763-1013: `execCmp` (Compile/Model.lean)
- 1017-1024: `Lim.eval` (Query/Select.lean)
- 1017-1024: `cadd` (Codec/Arith.lean)
- 1052-1061: `plusInterval` (Func/Timestamp.lean)
- 1081-1088: `dateAdd` (Func/Date.lean)
- 1091-1100: `datePlusInterval` (Func/Timestamp.lean)
- 1128-1135: `csub` (Codec/Arith.lean)
- 1163-1172: `minusInterval` (Func/Timestamp.lean)
- 1174-1181: `minusTs` (Func/Timestamp.lean)
- 1186-1189: `dateSub` (Func/Date.lean)
- 1223-1230: `cmul` (Codec/Arith.lean)
- 1275-1282: `cdiv` (Codec/Arith.lean)
- 1284-1315: `isZero` (Compile/Model.lean)
- 1318-1325: `cmod` (Codec/Arith.lean)
- 1328-1331: `cneg` (Codec/Arith.lean)
- 1360-1461: `jsonOr` (Compile/Model.lean)
- 1472-1476: `Cell` (Compile/Model.lean)
- 1478-1494: `Cell` (Compile/Model.lean)
- 1638-1755: `Cell` (Compile/Model.lean)
- 1638-1754: `readColumn` (Row/Model.lean)
- 1638-1754: `decodeTy` (Row/Model.lean)
- 1839-1855: `finalVal` (Query/Agg.lean)
- 1972-1979: `Cell` (Compile/Model.lean)
- 2005-2018: `Cell` (Compile/Model.lean)

## amelie/vm/vm/vm.h
- 14-33: `VM` (Compile/Model.lean)

## constraint.h
- 23-31: `Column` (Row/Model.lean)
