import Verif.Basic

/-! GENERATED by tools/gen_tables.py - do not edit.
Byte-type tables: src/lib/xmltok.rs:1175-1915 (`impl NormalEncodingTable for ...`).
Name-character tables: src/lib/nametab.rs:33-110. -/

namespace Verif.Tables
open Verif ByteType

/-- xmltok.rs:1177 `Utf8EncodingTable::types` -/
def utf8EncodingTable : List ByteType := [
  .NONXML, .NONXML, .NONXML, .NONXML, .NONXML, .NONXML, .NONXML, .NONXML,
  .NONXML, .S, .LF, .NONXML, .NONXML, .CR, .NONXML, .NONXML,
  .NONXML, .NONXML, .NONXML, .NONXML, .NONXML, .NONXML, .NONXML, .NONXML,
  .NONXML, .NONXML, .NONXML, .NONXML, .NONXML, .NONXML, .NONXML, .NONXML,
  .S, .EXCL, .QUOT, .NUM, .OTHER, .PERCNT, .AMP, .APOS,
  .LPAR, .RPAR, .AST, .PLUS, .COMMA, .MINUS, .NAME, .SOL,
  .DIGIT, .DIGIT, .DIGIT, .DIGIT, .DIGIT, .DIGIT, .DIGIT, .DIGIT,
  .DIGIT, .DIGIT, .NMSTRT, .SEMI, .LT, .EQUALS, .GT, .QUEST,
  .OTHER, .HEX, .HEX, .HEX, .HEX, .HEX, .HEX, .NMSTRT,
  .NMSTRT, .NMSTRT, .NMSTRT, .NMSTRT, .NMSTRT, .NMSTRT, .NMSTRT, .NMSTRT,
  .NMSTRT, .NMSTRT, .NMSTRT, .NMSTRT, .NMSTRT, .NMSTRT, .NMSTRT, .NMSTRT,
  .NMSTRT, .NMSTRT, .NMSTRT, .LSQB, .OTHER, .RSQB, .OTHER, .NMSTRT,
  .OTHER, .HEX, .HEX, .HEX, .HEX, .HEX, .HEX, .NMSTRT,
  .NMSTRT, .NMSTRT, .NMSTRT, .NMSTRT, .NMSTRT, .NMSTRT, .NMSTRT, .NMSTRT,
  .NMSTRT, .NMSTRT, .NMSTRT, .NMSTRT, .NMSTRT, .NMSTRT, .NMSTRT, .NMSTRT,
  .NMSTRT, .NMSTRT, .NMSTRT, .OTHER, .VERBAR, .OTHER, .OTHER, .OTHER,
  .TRAIL, .TRAIL, .TRAIL, .TRAIL, .TRAIL, .TRAIL, .TRAIL, .TRAIL,
  .TRAIL, .TRAIL, .TRAIL, .TRAIL, .TRAIL, .TRAIL, .TRAIL, .TRAIL,
  .TRAIL, .TRAIL, .TRAIL, .TRAIL, .TRAIL, .TRAIL, .TRAIL, .TRAIL,
  .TRAIL, .TRAIL, .TRAIL, .TRAIL, .TRAIL, .TRAIL, .TRAIL, .TRAIL,
  .TRAIL, .TRAIL, .TRAIL, .TRAIL, .TRAIL, .TRAIL, .TRAIL, .TRAIL,
  .TRAIL, .TRAIL, .TRAIL, .TRAIL, .TRAIL, .TRAIL, .TRAIL, .TRAIL,
  .TRAIL, .TRAIL, .TRAIL, .TRAIL, .TRAIL, .TRAIL, .TRAIL, .TRAIL,
  .TRAIL, .TRAIL, .TRAIL, .TRAIL, .TRAIL, .TRAIL, .TRAIL, .TRAIL,
  .LEAD2, .LEAD2, .LEAD2, .LEAD2, .LEAD2, .LEAD2, .LEAD2, .LEAD2,
  .LEAD2, .LEAD2, .LEAD2, .LEAD2, .LEAD2, .LEAD2, .LEAD2, .LEAD2,
  .LEAD2, .LEAD2, .LEAD2, .LEAD2, .LEAD2, .LEAD2, .LEAD2, .LEAD2,
  .LEAD2, .LEAD2, .LEAD2, .LEAD2, .LEAD2, .LEAD2, .LEAD2, .LEAD2,
  .LEAD3, .LEAD3, .LEAD3, .LEAD3, .LEAD3, .LEAD3, .LEAD3, .LEAD3,
  .LEAD3, .LEAD3, .LEAD3, .LEAD3, .LEAD3, .LEAD3, .LEAD3, .LEAD3,
  .LEAD4, .LEAD4, .LEAD4, .LEAD4, .LEAD4, .NONXML, .NONXML, .NONXML,
  .NONXML, .NONXML, .NONXML, .NONXML, .NONXML, .NONXML, .MALFORM, .MALFORM]

/-- xmltok.rs:1251 `Utf8EncodingTableNS::types` -/
def utf8EncodingTableNS : List ByteType := [
  .NONXML, .NONXML, .NONXML, .NONXML, .NONXML, .NONXML, .NONXML, .NONXML,
  .NONXML, .S, .LF, .NONXML, .NONXML, .CR, .NONXML, .NONXML,
  .NONXML, .NONXML, .NONXML, .NONXML, .NONXML, .NONXML, .NONXML, .NONXML,
  .NONXML, .NONXML, .NONXML, .NONXML, .NONXML, .NONXML, .NONXML, .NONXML,
  .S, .EXCL, .QUOT, .NUM, .OTHER, .PERCNT, .AMP, .APOS,
  .LPAR, .RPAR, .AST, .PLUS, .COMMA, .MINUS, .NAME, .SOL,
  .DIGIT, .DIGIT, .DIGIT, .DIGIT, .DIGIT, .DIGIT, .DIGIT, .DIGIT,
  .DIGIT, .DIGIT, .COLON, .SEMI, .LT, .EQUALS, .GT, .QUEST,
  .OTHER, .HEX, .HEX, .HEX, .HEX, .HEX, .HEX, .NMSTRT,
  .NMSTRT, .NMSTRT, .NMSTRT, .NMSTRT, .NMSTRT, .NMSTRT, .NMSTRT, .NMSTRT,
  .NMSTRT, .NMSTRT, .NMSTRT, .NMSTRT, .NMSTRT, .NMSTRT, .NMSTRT, .NMSTRT,
  .NMSTRT, .NMSTRT, .NMSTRT, .LSQB, .OTHER, .RSQB, .OTHER, .NMSTRT,
  .OTHER, .HEX, .HEX, .HEX, .HEX, .HEX, .HEX, .NMSTRT,
  .NMSTRT, .NMSTRT, .NMSTRT, .NMSTRT, .NMSTRT, .NMSTRT, .NMSTRT, .NMSTRT,
  .NMSTRT, .NMSTRT, .NMSTRT, .NMSTRT, .NMSTRT, .NMSTRT, .NMSTRT, .NMSTRT,
  .NMSTRT, .NMSTRT, .NMSTRT, .OTHER, .VERBAR, .OTHER, .OTHER, .OTHER,
  .TRAIL, .TRAIL, .TRAIL, .TRAIL, .TRAIL, .TRAIL, .TRAIL, .TRAIL,
  .TRAIL, .TRAIL, .TRAIL, .TRAIL, .TRAIL, .TRAIL, .TRAIL, .TRAIL,
  .TRAIL, .TRAIL, .TRAIL, .TRAIL, .TRAIL, .TRAIL, .TRAIL, .TRAIL,
  .TRAIL, .TRAIL, .TRAIL, .TRAIL, .TRAIL, .TRAIL, .TRAIL, .TRAIL,
  .TRAIL, .TRAIL, .TRAIL, .TRAIL, .TRAIL, .TRAIL, .TRAIL, .TRAIL,
  .TRAIL, .TRAIL, .TRAIL, .TRAIL, .TRAIL, .TRAIL, .TRAIL, .TRAIL,
  .TRAIL, .TRAIL, .TRAIL, .TRAIL, .TRAIL, .TRAIL, .TRAIL, .TRAIL,
  .TRAIL, .TRAIL, .TRAIL, .TRAIL, .TRAIL, .TRAIL, .TRAIL, .TRAIL,
  .LEAD2, .LEAD2, .LEAD2, .LEAD2, .LEAD2, .LEAD2, .LEAD2, .LEAD2,
  .LEAD2, .LEAD2, .LEAD2, .LEAD2, .LEAD2, .LEAD2, .LEAD2, .LEAD2,
  .LEAD2, .LEAD2, .LEAD2, .LEAD2, .LEAD2, .LEAD2, .LEAD2, .LEAD2,
  .LEAD2, .LEAD2, .LEAD2, .LEAD2, .LEAD2, .LEAD2, .LEAD2, .LEAD2,
  .LEAD3, .LEAD3, .LEAD3, .LEAD3, .LEAD3, .LEAD3, .LEAD3, .LEAD3,
  .LEAD3, .LEAD3, .LEAD3, .LEAD3, .LEAD3, .LEAD3, .LEAD3, .LEAD3,
  .LEAD4, .LEAD4, .LEAD4, .LEAD4, .LEAD4, .NONXML, .NONXML, .NONXML,
  .NONXML, .NONXML, .NONXML, .NONXML, .NONXML, .NONXML, .MALFORM, .MALFORM]

/-- xmltok.rs:1325 `InternalUtf8EncodingTable::types` -/
def internalUtf8EncodingTable : List ByteType := [
  .NONXML, .NONXML, .NONXML, .NONXML, .NONXML, .NONXML, .NONXML, .NONXML,
  .NONXML, .S, .LF, .NONXML, .NONXML, .S, .NONXML, .NONXML,
  .NONXML, .NONXML, .NONXML, .NONXML, .NONXML, .NONXML, .NONXML, .NONXML,
  .NONXML, .NONXML, .NONXML, .NONXML, .NONXML, .NONXML, .NONXML, .NONXML,
  .S, .EXCL, .QUOT, .NUM, .OTHER, .PERCNT, .AMP, .APOS,
  .LPAR, .RPAR, .AST, .PLUS, .COMMA, .MINUS, .NAME, .SOL,
  .DIGIT, .DIGIT, .DIGIT, .DIGIT, .DIGIT, .DIGIT, .DIGIT, .DIGIT,
  .DIGIT, .DIGIT, .NMSTRT, .SEMI, .LT, .EQUALS, .GT, .QUEST,
  .OTHER, .HEX, .HEX, .HEX, .HEX, .HEX, .HEX, .NMSTRT,
  .NMSTRT, .NMSTRT, .NMSTRT, .NMSTRT, .NMSTRT, .NMSTRT, .NMSTRT, .NMSTRT,
  .NMSTRT, .NMSTRT, .NMSTRT, .NMSTRT, .NMSTRT, .NMSTRT, .NMSTRT, .NMSTRT,
  .NMSTRT, .NMSTRT, .NMSTRT, .LSQB, .OTHER, .RSQB, .OTHER, .NMSTRT,
  .OTHER, .HEX, .HEX, .HEX, .HEX, .HEX, .HEX, .NMSTRT,
  .NMSTRT, .NMSTRT, .NMSTRT, .NMSTRT, .NMSTRT, .NMSTRT, .NMSTRT, .NMSTRT,
  .NMSTRT, .NMSTRT, .NMSTRT, .NMSTRT, .NMSTRT, .NMSTRT, .NMSTRT, .NMSTRT,
  .NMSTRT, .NMSTRT, .NMSTRT, .OTHER, .VERBAR, .OTHER, .OTHER, .OTHER,
  .TRAIL, .TRAIL, .TRAIL, .TRAIL, .TRAIL, .TRAIL, .TRAIL, .TRAIL,
  .TRAIL, .TRAIL, .TRAIL, .TRAIL, .TRAIL, .TRAIL, .TRAIL, .TRAIL,
  .TRAIL, .TRAIL, .TRAIL, .TRAIL, .TRAIL, .TRAIL, .TRAIL, .TRAIL,
  .TRAIL, .TRAIL, .TRAIL, .TRAIL, .TRAIL, .TRAIL, .TRAIL, .TRAIL,
  .TRAIL, .TRAIL, .TRAIL, .TRAIL, .TRAIL, .TRAIL, .TRAIL, .TRAIL,
  .TRAIL, .TRAIL, .TRAIL, .TRAIL, .TRAIL, .TRAIL, .TRAIL, .TRAIL,
  .TRAIL, .TRAIL, .TRAIL, .TRAIL, .TRAIL, .TRAIL, .TRAIL, .TRAIL,
  .TRAIL, .TRAIL, .TRAIL, .TRAIL, .TRAIL, .TRAIL, .TRAIL, .TRAIL,
  .LEAD2, .LEAD2, .LEAD2, .LEAD2, .LEAD2, .LEAD2, .LEAD2, .LEAD2,
  .LEAD2, .LEAD2, .LEAD2, .LEAD2, .LEAD2, .LEAD2, .LEAD2, .LEAD2,
  .LEAD2, .LEAD2, .LEAD2, .LEAD2, .LEAD2, .LEAD2, .LEAD2, .LEAD2,
  .LEAD2, .LEAD2, .LEAD2, .LEAD2, .LEAD2, .LEAD2, .LEAD2, .LEAD2,
  .LEAD3, .LEAD3, .LEAD3, .LEAD3, .LEAD3, .LEAD3, .LEAD3, .LEAD3,
  .LEAD3, .LEAD3, .LEAD3, .LEAD3, .LEAD3, .LEAD3, .LEAD3, .LEAD3,
  .LEAD4, .LEAD4, .LEAD4, .LEAD4, .LEAD4, .NONXML, .NONXML, .NONXML,
  .NONXML, .NONXML, .NONXML, .NONXML, .NONXML, .NONXML, .MALFORM, .MALFORM]

/-- xmltok.rs:1400 `InternalUtf8EncodingTableNS::types` -/
def internalUtf8EncodingTableNS : List ByteType := [
  .NONXML, .NONXML, .NONXML, .NONXML, .NONXML, .NONXML, .NONXML, .NONXML,
  .NONXML, .S, .LF, .NONXML, .NONXML, .S, .NONXML, .NONXML,
  .NONXML, .NONXML, .NONXML, .NONXML, .NONXML, .NONXML, .NONXML, .NONXML,
  .NONXML, .NONXML, .NONXML, .NONXML, .NONXML, .NONXML, .NONXML, .NONXML,
  .S, .EXCL, .QUOT, .NUM, .OTHER, .PERCNT, .AMP, .APOS,
  .LPAR, .RPAR, .AST, .PLUS, .COMMA, .MINUS, .NAME, .SOL,
  .DIGIT, .DIGIT, .DIGIT, .DIGIT, .DIGIT, .DIGIT, .DIGIT, .DIGIT,
  .DIGIT, .DIGIT, .COLON, .SEMI, .LT, .EQUALS, .GT, .QUEST,
  .OTHER, .HEX, .HEX, .HEX, .HEX, .HEX, .HEX, .NMSTRT,
  .NMSTRT, .NMSTRT, .NMSTRT, .NMSTRT, .NMSTRT, .NMSTRT, .NMSTRT, .NMSTRT,
  .NMSTRT, .NMSTRT, .NMSTRT, .NMSTRT, .NMSTRT, .NMSTRT, .NMSTRT, .NMSTRT,
  .NMSTRT, .NMSTRT, .NMSTRT, .LSQB, .OTHER, .RSQB, .OTHER, .NMSTRT,
  .OTHER, .HEX, .HEX, .HEX, .HEX, .HEX, .HEX, .NMSTRT,
  .NMSTRT, .NMSTRT, .NMSTRT, .NMSTRT, .NMSTRT, .NMSTRT, .NMSTRT, .NMSTRT,
  .NMSTRT, .NMSTRT, .NMSTRT, .NMSTRT, .NMSTRT, .NMSTRT, .NMSTRT, .NMSTRT,
  .NMSTRT, .NMSTRT, .NMSTRT, .OTHER, .VERBAR, .OTHER, .OTHER, .OTHER,
  .TRAIL, .TRAIL, .TRAIL, .TRAIL, .TRAIL, .TRAIL, .TRAIL, .TRAIL,
  .TRAIL, .TRAIL, .TRAIL, .TRAIL, .TRAIL, .TRAIL, .TRAIL, .TRAIL,
  .TRAIL, .TRAIL, .TRAIL, .TRAIL, .TRAIL, .TRAIL, .TRAIL, .TRAIL,
  .TRAIL, .TRAIL, .TRAIL, .TRAIL, .TRAIL, .TRAIL, .TRAIL, .TRAIL,
  .TRAIL, .TRAIL, .TRAIL, .TRAIL, .TRAIL, .TRAIL, .TRAIL, .TRAIL,
  .TRAIL, .TRAIL, .TRAIL, .TRAIL, .TRAIL, .TRAIL, .TRAIL, .TRAIL,
  .TRAIL, .TRAIL, .TRAIL, .TRAIL, .TRAIL, .TRAIL, .TRAIL, .TRAIL,
  .TRAIL, .TRAIL, .TRAIL, .TRAIL, .TRAIL, .TRAIL, .TRAIL, .TRAIL,
  .LEAD2, .LEAD2, .LEAD2, .LEAD2, .LEAD2, .LEAD2, .LEAD2, .LEAD2,
  .LEAD2, .LEAD2, .LEAD2, .LEAD2, .LEAD2, .LEAD2, .LEAD2, .LEAD2,
  .LEAD2, .LEAD2, .LEAD2, .LEAD2, .LEAD2, .LEAD2, .LEAD2, .LEAD2,
  .LEAD2, .LEAD2, .LEAD2, .LEAD2, .LEAD2, .LEAD2, .LEAD2, .LEAD2,
  .LEAD3, .LEAD3, .LEAD3, .LEAD3, .LEAD3, .LEAD3, .LEAD3, .LEAD3,
  .LEAD3, .LEAD3, .LEAD3, .LEAD3, .LEAD3, .LEAD3, .LEAD3, .LEAD3,
  .LEAD4, .LEAD4, .LEAD4, .LEAD4, .LEAD4, .NONXML, .NONXML, .NONXML,
  .NONXML, .NONXML, .NONXML, .NONXML, .NONXML, .NONXML, .MALFORM, .MALFORM]

/-- xmltok.rs:1475 `Latin1EncodingTable::types` -/
def latin1EncodingTable : List ByteType := [
  .NONXML, .NONXML, .NONXML, .NONXML, .NONXML, .NONXML, .NONXML, .NONXML,
  .NONXML, .S, .LF, .NONXML, .NONXML, .CR, .NONXML, .NONXML,
  .NONXML, .NONXML, .NONXML, .NONXML, .NONXML, .NONXML, .NONXML, .NONXML,
  .NONXML, .NONXML, .NONXML, .NONXML, .NONXML, .NONXML, .NONXML, .NONXML,
  .S, .EXCL, .QUOT, .NUM, .OTHER, .PERCNT, .AMP, .APOS,
  .LPAR, .RPAR, .AST, .PLUS, .COMMA, .MINUS, .NAME, .SOL,
  .DIGIT, .DIGIT, .DIGIT, .DIGIT, .DIGIT, .DIGIT, .DIGIT, .DIGIT,
  .DIGIT, .DIGIT, .NMSTRT, .SEMI, .LT, .EQUALS, .GT, .QUEST,
  .OTHER, .HEX, .HEX, .HEX, .HEX, .HEX, .HEX, .NMSTRT,
  .NMSTRT, .NMSTRT, .NMSTRT, .NMSTRT, .NMSTRT, .NMSTRT, .NMSTRT, .NMSTRT,
  .NMSTRT, .NMSTRT, .NMSTRT, .NMSTRT, .NMSTRT, .NMSTRT, .NMSTRT, .NMSTRT,
  .NMSTRT, .NMSTRT, .NMSTRT, .LSQB, .OTHER, .RSQB, .OTHER, .NMSTRT,
  .OTHER, .HEX, .HEX, .HEX, .HEX, .HEX, .HEX, .NMSTRT,
  .NMSTRT, .NMSTRT, .NMSTRT, .NMSTRT, .NMSTRT, .NMSTRT, .NMSTRT, .NMSTRT,
  .NMSTRT, .NMSTRT, .NMSTRT, .NMSTRT, .NMSTRT, .NMSTRT, .NMSTRT, .NMSTRT,
  .NMSTRT, .NMSTRT, .NMSTRT, .OTHER, .VERBAR, .OTHER, .OTHER, .OTHER,
  .OTHER, .OTHER, .OTHER, .OTHER, .OTHER, .OTHER, .OTHER, .OTHER,
  .OTHER, .OTHER, .OTHER, .OTHER, .OTHER, .OTHER, .OTHER, .OTHER,
  .OTHER, .OTHER, .OTHER, .OTHER, .OTHER, .OTHER, .OTHER, .OTHER,
  .OTHER, .OTHER, .OTHER, .OTHER, .OTHER, .OTHER, .OTHER, .OTHER,
  .OTHER, .OTHER, .OTHER, .OTHER, .OTHER, .OTHER, .OTHER, .OTHER,
  .OTHER, .OTHER, .NMSTRT, .OTHER, .OTHER, .OTHER, .OTHER, .OTHER,
  .OTHER, .OTHER, .OTHER, .OTHER, .OTHER, .NMSTRT, .OTHER, .NAME,
  .OTHER, .OTHER, .NMSTRT, .OTHER, .OTHER, .OTHER, .OTHER, .OTHER,
  .NMSTRT, .NMSTRT, .NMSTRT, .NMSTRT, .NMSTRT, .NMSTRT, .NMSTRT, .NMSTRT,
  .NMSTRT, .NMSTRT, .NMSTRT, .NMSTRT, .NMSTRT, .NMSTRT, .NMSTRT, .NMSTRT,
  .NMSTRT, .NMSTRT, .NMSTRT, .NMSTRT, .NMSTRT, .NMSTRT, .NMSTRT, .OTHER,
  .NMSTRT, .NMSTRT, .NMSTRT, .NMSTRT, .NMSTRT, .NMSTRT, .NMSTRT, .NMSTRT,
  .NMSTRT, .NMSTRT, .NMSTRT, .NMSTRT, .NMSTRT, .NMSTRT, .NMSTRT, .NMSTRT,
  .NMSTRT, .NMSTRT, .NMSTRT, .NMSTRT, .NMSTRT, .NMSTRT, .NMSTRT, .NMSTRT,
  .NMSTRT, .NMSTRT, .NMSTRT, .NMSTRT, .NMSTRT, .NMSTRT, .NMSTRT, .OTHER,
  .NMSTRT, .NMSTRT, .NMSTRT, .NMSTRT, .NMSTRT, .NMSTRT, .NMSTRT, .NMSTRT]

/-- xmltok.rs:1549 `Latin1EncodingTableNS::types` -/
def latin1EncodingTableNS : List ByteType := [
  .NONXML, .NONXML, .NONXML, .NONXML, .NONXML, .NONXML, .NONXML, .NONXML,
  .NONXML, .S, .LF, .NONXML, .NONXML, .CR, .NONXML, .NONXML,
  .NONXML, .NONXML, .NONXML, .NONXML, .NONXML, .NONXML, .NONXML, .NONXML,
  .NONXML, .NONXML, .NONXML, .NONXML, .NONXML, .NONXML, .NONXML, .NONXML,
  .S, .EXCL, .QUOT, .NUM, .OTHER, .PERCNT, .AMP, .APOS,
  .LPAR, .RPAR, .AST, .PLUS, .COMMA, .MINUS, .NAME, .SOL,
  .DIGIT, .DIGIT, .DIGIT, .DIGIT, .DIGIT, .DIGIT, .DIGIT, .DIGIT,
  .DIGIT, .DIGIT, .COLON, .SEMI, .LT, .EQUALS, .GT, .QUEST,
  .OTHER, .HEX, .HEX, .HEX, .HEX, .HEX, .HEX, .NMSTRT,
  .NMSTRT, .NMSTRT, .NMSTRT, .NMSTRT, .NMSTRT, .NMSTRT, .NMSTRT, .NMSTRT,
  .NMSTRT, .NMSTRT, .NMSTRT, .NMSTRT, .NMSTRT, .NMSTRT, .NMSTRT, .NMSTRT,
  .NMSTRT, .NMSTRT, .NMSTRT, .LSQB, .OTHER, .RSQB, .OTHER, .NMSTRT,
  .OTHER, .HEX, .HEX, .HEX, .HEX, .HEX, .HEX, .NMSTRT,
  .NMSTRT, .NMSTRT, .NMSTRT, .NMSTRT, .NMSTRT, .NMSTRT, .NMSTRT, .NMSTRT,
  .NMSTRT, .NMSTRT, .NMSTRT, .NMSTRT, .NMSTRT, .NMSTRT, .NMSTRT, .NMSTRT,
  .NMSTRT, .NMSTRT, .NMSTRT, .OTHER, .VERBAR, .OTHER, .OTHER, .OTHER,
  .OTHER, .OTHER, .OTHER, .OTHER, .OTHER, .OTHER, .OTHER, .OTHER,
  .OTHER, .OTHER, .OTHER, .OTHER, .OTHER, .OTHER, .OTHER, .OTHER,
  .OTHER, .OTHER, .OTHER, .OTHER, .OTHER, .OTHER, .OTHER, .OTHER,
  .OTHER, .OTHER, .OTHER, .OTHER, .OTHER, .OTHER, .OTHER, .OTHER,
  .OTHER, .OTHER, .OTHER, .OTHER, .OTHER, .OTHER, .OTHER, .OTHER,
  .OTHER, .OTHER, .NMSTRT, .OTHER, .OTHER, .OTHER, .OTHER, .OTHER,
  .OTHER, .OTHER, .OTHER, .OTHER, .OTHER, .NMSTRT, .OTHER, .NAME,
  .OTHER, .OTHER, .NMSTRT, .OTHER, .OTHER, .OTHER, .OTHER, .OTHER,
  .NMSTRT, .NMSTRT, .NMSTRT, .NMSTRT, .NMSTRT, .NMSTRT, .NMSTRT, .NMSTRT,
  .NMSTRT, .NMSTRT, .NMSTRT, .NMSTRT, .NMSTRT, .NMSTRT, .NMSTRT, .NMSTRT,
  .NMSTRT, .NMSTRT, .NMSTRT, .NMSTRT, .NMSTRT, .NMSTRT, .NMSTRT, .OTHER,
  .NMSTRT, .NMSTRT, .NMSTRT, .NMSTRT, .NMSTRT, .NMSTRT, .NMSTRT, .NMSTRT,
  .NMSTRT, .NMSTRT, .NMSTRT, .NMSTRT, .NMSTRT, .NMSTRT, .NMSTRT, .NMSTRT,
  .NMSTRT, .NMSTRT, .NMSTRT, .NMSTRT, .NMSTRT, .NMSTRT, .NMSTRT, .NMSTRT,
  .NMSTRT, .NMSTRT, .NMSTRT, .NMSTRT, .NMSTRT, .NMSTRT, .NMSTRT, .OTHER,
  .NMSTRT, .NMSTRT, .NMSTRT, .NMSTRT, .NMSTRT, .NMSTRT, .NMSTRT, .NMSTRT]

/-- xmltok.rs:1623 `InternalLatin1EncodingTable::types` -/
def internalLatin1EncodingTable : List ByteType := [
  .NONXML, .NONXML, .NONXML, .NONXML, .NONXML, .NONXML, .NONXML, .NONXML,
  .NONXML, .S, .LF, .NONXML, .NONXML, .S, .NONXML, .NONXML,
  .NONXML, .NONXML, .NONXML, .NONXML, .NONXML, .NONXML, .NONXML, .NONXML,
  .NONXML, .NONXML, .NONXML, .NONXML, .NONXML, .NONXML, .NONXML, .NONXML,
  .S, .EXCL, .QUOT, .NUM, .OTHER, .PERCNT, .AMP, .APOS,
  .LPAR, .RPAR, .AST, .PLUS, .COMMA, .MINUS, .NAME, .SOL,
  .DIGIT, .DIGIT, .DIGIT, .DIGIT, .DIGIT, .DIGIT, .DIGIT, .DIGIT,
  .DIGIT, .DIGIT, .NMSTRT, .SEMI, .LT, .EQUALS, .GT, .QUEST,
  .OTHER, .HEX, .HEX, .HEX, .HEX, .HEX, .HEX, .NMSTRT,
  .NMSTRT, .NMSTRT, .NMSTRT, .NMSTRT, .NMSTRT, .NMSTRT, .NMSTRT, .NMSTRT,
  .NMSTRT, .NMSTRT, .NMSTRT, .NMSTRT, .NMSTRT, .NMSTRT, .NMSTRT, .NMSTRT,
  .NMSTRT, .NMSTRT, .NMSTRT, .LSQB, .OTHER, .RSQB, .OTHER, .NMSTRT,
  .OTHER, .HEX, .HEX, .HEX, .HEX, .HEX, .HEX, .NMSTRT,
  .NMSTRT, .NMSTRT, .NMSTRT, .NMSTRT, .NMSTRT, .NMSTRT, .NMSTRT, .NMSTRT,
  .NMSTRT, .NMSTRT, .NMSTRT, .NMSTRT, .NMSTRT, .NMSTRT, .NMSTRT, .NMSTRT,
  .NMSTRT, .NMSTRT, .NMSTRT, .OTHER, .VERBAR, .OTHER, .OTHER, .OTHER,
  .OTHER, .OTHER, .OTHER, .OTHER, .OTHER, .OTHER, .OTHER, .OTHER,
  .OTHER, .OTHER, .OTHER, .OTHER, .OTHER, .OTHER, .OTHER, .OTHER,
  .OTHER, .OTHER, .OTHER, .OTHER, .OTHER, .OTHER, .OTHER, .OTHER,
  .OTHER, .OTHER, .OTHER, .OTHER, .OTHER, .OTHER, .OTHER, .OTHER,
  .OTHER, .OTHER, .OTHER, .OTHER, .OTHER, .OTHER, .OTHER, .OTHER,
  .OTHER, .OTHER, .NMSTRT, .OTHER, .OTHER, .OTHER, .OTHER, .OTHER,
  .OTHER, .OTHER, .OTHER, .OTHER, .OTHER, .NMSTRT, .OTHER, .NAME,
  .OTHER, .OTHER, .NMSTRT, .OTHER, .OTHER, .OTHER, .OTHER, .OTHER,
  .NMSTRT, .NMSTRT, .NMSTRT, .NMSTRT, .NMSTRT, .NMSTRT, .NMSTRT, .NMSTRT,
  .NMSTRT, .NMSTRT, .NMSTRT, .NMSTRT, .NMSTRT, .NMSTRT, .NMSTRT, .NMSTRT,
  .NMSTRT, .NMSTRT, .NMSTRT, .NMSTRT, .NMSTRT, .NMSTRT, .NMSTRT, .OTHER,
  .NMSTRT, .NMSTRT, .NMSTRT, .NMSTRT, .NMSTRT, .NMSTRT, .NMSTRT, .NMSTRT,
  .NMSTRT, .NMSTRT, .NMSTRT, .NMSTRT, .NMSTRT, .NMSTRT, .NMSTRT, .NMSTRT,
  .NMSTRT, .NMSTRT, .NMSTRT, .NMSTRT, .NMSTRT, .NMSTRT, .NMSTRT, .NMSTRT,
  .NMSTRT, .NMSTRT, .NMSTRT, .NMSTRT, .NMSTRT, .NMSTRT, .NMSTRT, .OTHER,
  .NMSTRT, .NMSTRT, .NMSTRT, .NMSTRT, .NMSTRT, .NMSTRT, .NMSTRT, .NMSTRT]

/-- xmltok.rs:1698 `InternalLatin1EncodingTableNS::types` -/
def internalLatin1EncodingTableNS : List ByteType := [
  .NONXML, .NONXML, .NONXML, .NONXML, .NONXML, .NONXML, .NONXML, .NONXML,
  .NONXML, .S, .LF, .NONXML, .NONXML, .S, .NONXML, .NONXML,
  .NONXML, .NONXML, .NONXML, .NONXML, .NONXML, .NONXML, .NONXML, .NONXML,
  .NONXML, .NONXML, .NONXML, .NONXML, .NONXML, .NONXML, .NONXML, .NONXML,
  .S, .EXCL, .QUOT, .NUM, .OTHER, .PERCNT, .AMP, .APOS,
  .LPAR, .RPAR, .AST, .PLUS, .COMMA, .MINUS, .NAME, .SOL,
  .DIGIT, .DIGIT, .DIGIT, .DIGIT, .DIGIT, .DIGIT, .DIGIT, .DIGIT,
  .DIGIT, .DIGIT, .COLON, .SEMI, .LT, .EQUALS, .GT, .QUEST,
  .OTHER, .HEX, .HEX, .HEX, .HEX, .HEX, .HEX, .NMSTRT,
  .NMSTRT, .NMSTRT, .NMSTRT, .NMSTRT, .NMSTRT, .NMSTRT, .NMSTRT, .NMSTRT,
  .NMSTRT, .NMSTRT, .NMSTRT, .NMSTRT, .NMSTRT, .NMSTRT, .NMSTRT, .NMSTRT,
  .NMSTRT, .NMSTRT, .NMSTRT, .LSQB, .OTHER, .RSQB, .OTHER, .NMSTRT,
  .OTHER, .HEX, .HEX, .HEX, .HEX, .HEX, .HEX, .NMSTRT,
  .NMSTRT, .NMSTRT, .NMSTRT, .NMSTRT, .NMSTRT, .NMSTRT, .NMSTRT, .NMSTRT,
  .NMSTRT, .NMSTRT, .NMSTRT, .NMSTRT, .NMSTRT, .NMSTRT, .NMSTRT, .NMSTRT,
  .NMSTRT, .NMSTRT, .NMSTRT, .OTHER, .VERBAR, .OTHER, .OTHER, .OTHER,
  .OTHER, .OTHER, .OTHER, .OTHER, .OTHER, .OTHER, .OTHER, .OTHER,
  .OTHER, .OTHER, .OTHER, .OTHER, .OTHER, .OTHER, .OTHER, .OTHER,
  .OTHER, .OTHER, .OTHER, .OTHER, .OTHER, .OTHER, .OTHER, .OTHER,
  .OTHER, .OTHER, .OTHER, .OTHER, .OTHER, .OTHER, .OTHER, .OTHER,
  .OTHER, .OTHER, .OTHER, .OTHER, .OTHER, .OTHER, .OTHER, .OTHER,
  .OTHER, .OTHER, .NMSTRT, .OTHER, .OTHER, .OTHER, .OTHER, .OTHER,
  .OTHER, .OTHER, .OTHER, .OTHER, .OTHER, .NMSTRT, .OTHER, .NAME,
  .OTHER, .OTHER, .NMSTRT, .OTHER, .OTHER, .OTHER, .OTHER, .OTHER,
  .NMSTRT, .NMSTRT, .NMSTRT, .NMSTRT, .NMSTRT, .NMSTRT, .NMSTRT, .NMSTRT,
  .NMSTRT, .NMSTRT, .NMSTRT, .NMSTRT, .NMSTRT, .NMSTRT, .NMSTRT, .NMSTRT,
  .NMSTRT, .NMSTRT, .NMSTRT, .NMSTRT, .NMSTRT, .NMSTRT, .NMSTRT, .OTHER,
  .NMSTRT, .NMSTRT, .NMSTRT, .NMSTRT, .NMSTRT, .NMSTRT, .NMSTRT, .NMSTRT,
  .NMSTRT, .NMSTRT, .NMSTRT, .NMSTRT, .NMSTRT, .NMSTRT, .NMSTRT, .NMSTRT,
  .NMSTRT, .NMSTRT, .NMSTRT, .NMSTRT, .NMSTRT, .NMSTRT, .NMSTRT, .NMSTRT,
  .NMSTRT, .NMSTRT, .NMSTRT, .NMSTRT, .NMSTRT, .NMSTRT, .NMSTRT, .OTHER,
  .NMSTRT, .NMSTRT, .NMSTRT, .NMSTRT, .NMSTRT, .NMSTRT, .NMSTRT, .NMSTRT]

/-- xmltok.rs:1773 `AsciiEncodingTable::types` -/
def asciiEncodingTable : List ByteType := [
  .NONXML, .NONXML, .NONXML, .NONXML, .NONXML, .NONXML, .NONXML, .NONXML,
  .NONXML, .S, .LF, .NONXML, .NONXML, .CR, .NONXML, .NONXML,
  .NONXML, .NONXML, .NONXML, .NONXML, .NONXML, .NONXML, .NONXML, .NONXML,
  .NONXML, .NONXML, .NONXML, .NONXML, .NONXML, .NONXML, .NONXML, .NONXML,
  .S, .EXCL, .QUOT, .NUM, .OTHER, .PERCNT, .AMP, .APOS,
  .LPAR, .RPAR, .AST, .PLUS, .COMMA, .MINUS, .NAME, .SOL,
  .DIGIT, .DIGIT, .DIGIT, .DIGIT, .DIGIT, .DIGIT, .DIGIT, .DIGIT,
  .DIGIT, .DIGIT, .NMSTRT, .SEMI, .LT, .EQUALS, .GT, .QUEST,
  .OTHER, .HEX, .HEX, .HEX, .HEX, .HEX, .HEX, .NMSTRT,
  .NMSTRT, .NMSTRT, .NMSTRT, .NMSTRT, .NMSTRT, .NMSTRT, .NMSTRT, .NMSTRT,
  .NMSTRT, .NMSTRT, .NMSTRT, .NMSTRT, .NMSTRT, .NMSTRT, .NMSTRT, .NMSTRT,
  .NMSTRT, .NMSTRT, .NMSTRT, .LSQB, .OTHER, .RSQB, .OTHER, .NMSTRT,
  .OTHER, .HEX, .HEX, .HEX, .HEX, .HEX, .HEX, .NMSTRT,
  .NMSTRT, .NMSTRT, .NMSTRT, .NMSTRT, .NMSTRT, .NMSTRT, .NMSTRT, .NMSTRT,
  .NMSTRT, .NMSTRT, .NMSTRT, .NMSTRT, .NMSTRT, .NMSTRT, .NMSTRT, .NMSTRT,
  .NMSTRT, .NMSTRT, .NMSTRT, .OTHER, .VERBAR, .OTHER, .OTHER, .OTHER,
  .NONXML, .NONXML, .NONXML, .NONXML, .NONXML, .NONXML, .NONXML, .NONXML,
  .NONXML, .NONXML, .NONXML, .NONXML, .NONXML, .NONXML, .NONXML, .NONXML,
  .NONXML, .NONXML, .NONXML, .NONXML, .NONXML, .NONXML, .NONXML, .NONXML,
  .NONXML, .NONXML, .NONXML, .NONXML, .NONXML, .NONXML, .NONXML, .NONXML,
  .NONXML, .NONXML, .NONXML, .NONXML, .NONXML, .NONXML, .NONXML, .NONXML,
  .NONXML, .NONXML, .NONXML, .NONXML, .NONXML, .NONXML, .NONXML, .NONXML,
  .NONXML, .NONXML, .NONXML, .NONXML, .NONXML, .NONXML, .NONXML, .NONXML,
  .NONXML, .NONXML, .NONXML, .NONXML, .NONXML, .NONXML, .NONXML, .NONXML,
  .NONXML, .NONXML, .NONXML, .NONXML, .NONXML, .NONXML, .NONXML, .NONXML,
  .NONXML, .NONXML, .NONXML, .NONXML, .NONXML, .NONXML, .NONXML, .NONXML,
  .NONXML, .NONXML, .NONXML, .NONXML, .NONXML, .NONXML, .NONXML, .NONXML,
  .NONXML, .NONXML, .NONXML, .NONXML, .NONXML, .NONXML, .NONXML, .NONXML,
  .NONXML, .NONXML, .NONXML, .NONXML, .NONXML, .NONXML, .NONXML, .NONXML,
  .NONXML, .NONXML, .NONXML, .NONXML, .NONXML, .NONXML, .NONXML, .NONXML,
  .NONXML, .NONXML, .NONXML, .NONXML, .NONXML, .NONXML, .NONXML, .NONXML,
  .NONXML, .NONXML, .NONXML, .NONXML, .NONXML, .NONXML, .NONXML, .NONXML]

/-- xmltok.rs:1846 `AsciiEncodingTableNS::types` -/
def asciiEncodingTableNS : List ByteType := [
  .NONXML, .NONXML, .NONXML, .NONXML, .NONXML, .NONXML, .NONXML, .NONXML,
  .NONXML, .S, .LF, .NONXML, .NONXML, .CR, .NONXML, .NONXML,
  .NONXML, .NONXML, .NONXML, .NONXML, .NONXML, .NONXML, .NONXML, .NONXML,
  .NONXML, .NONXML, .NONXML, .NONXML, .NONXML, .NONXML, .NONXML, .NONXML,
  .S, .EXCL, .QUOT, .NUM, .OTHER, .PERCNT, .AMP, .APOS,
  .LPAR, .RPAR, .AST, .PLUS, .COMMA, .MINUS, .NAME, .SOL,
  .DIGIT, .DIGIT, .DIGIT, .DIGIT, .DIGIT, .DIGIT, .DIGIT, .DIGIT,
  .DIGIT, .DIGIT, .COLON, .SEMI, .LT, .EQUALS, .GT, .QUEST,
  .OTHER, .HEX, .HEX, .HEX, .HEX, .HEX, .HEX, .NMSTRT,
  .NMSTRT, .NMSTRT, .NMSTRT, .NMSTRT, .NMSTRT, .NMSTRT, .NMSTRT, .NMSTRT,
  .NMSTRT, .NMSTRT, .NMSTRT, .NMSTRT, .NMSTRT, .NMSTRT, .NMSTRT, .NMSTRT,
  .NMSTRT, .NMSTRT, .NMSTRT, .LSQB, .OTHER, .RSQB, .OTHER, .NMSTRT,
  .OTHER, .HEX, .HEX, .HEX, .HEX, .HEX, .HEX, .NMSTRT,
  .NMSTRT, .NMSTRT, .NMSTRT, .NMSTRT, .NMSTRT, .NMSTRT, .NMSTRT, .NMSTRT,
  .NMSTRT, .NMSTRT, .NMSTRT, .NMSTRT, .NMSTRT, .NMSTRT, .NMSTRT, .NMSTRT,
  .NMSTRT, .NMSTRT, .NMSTRT, .OTHER, .VERBAR, .OTHER, .OTHER, .OTHER,
  .NONXML, .NONXML, .NONXML, .NONXML, .NONXML, .NONXML, .NONXML, .NONXML,
  .NONXML, .NONXML, .NONXML, .NONXML, .NONXML, .NONXML, .NONXML, .NONXML,
  .NONXML, .NONXML, .NONXML, .NONXML, .NONXML, .NONXML, .NONXML, .NONXML,
  .NONXML, .NONXML, .NONXML, .NONXML, .NONXML, .NONXML, .NONXML, .NONXML,
  .NONXML, .NONXML, .NONXML, .NONXML, .NONXML, .NONXML, .NONXML, .NONXML,
  .NONXML, .NONXML, .NONXML, .NONXML, .NONXML, .NONXML, .NONXML, .NONXML,
  .NONXML, .NONXML, .NONXML, .NONXML, .NONXML, .NONXML, .NONXML, .NONXML,
  .NONXML, .NONXML, .NONXML, .NONXML, .NONXML, .NONXML, .NONXML, .NONXML,
  .NONXML, .NONXML, .NONXML, .NONXML, .NONXML, .NONXML, .NONXML, .NONXML,
  .NONXML, .NONXML, .NONXML, .NONXML, .NONXML, .NONXML, .NONXML, .NONXML,
  .NONXML, .NONXML, .NONXML, .NONXML, .NONXML, .NONXML, .NONXML, .NONXML,
  .NONXML, .NONXML, .NONXML, .NONXML, .NONXML, .NONXML, .NONXML, .NONXML,
  .NONXML, .NONXML, .NONXML, .NONXML, .NONXML, .NONXML, .NONXML, .NONXML,
  .NONXML, .NONXML, .NONXML, .NONXML, .NONXML, .NONXML, .NONXML, .NONXML,
  .NONXML, .NONXML, .NONXML, .NONXML, .NONXML, .NONXML, .NONXML, .NONXML,
  .NONXML, .NONXML, .NONXML, .NONXML, .NONXML, .NONXML, .NONXML, .NONXML]

/-- nametab.rs:33 `namingBitmap` -/
def namingBitmap : List Nat := [
  0x0, 0x0, 0x0, 0x0, 0x0, 0x0, 0x0, 0x0,
  0xFFFFFFFF, 0xFFFFFFFF, 0xFFFFFFFF, 0xFFFFFFFF, 0xFFFFFFFF, 0xFFFFFFFF, 0xFFFFFFFF, 0xFFFFFFFF,
  0x0, 0x4000000, 0x87FFFFFE, 0x7FFFFFE, 0x0, 0x0, 0xFF7FFFFF, 0xFF7FFFFF,
  0xFFFFFFFF, 0x7FF3FFFF, 0xFFFFFDFE, 0x7FFFFFFF, 0xFFFFFFFF, 0xFFFFFFFF, 0xFFFFE00F, 0xFC31FFFF,
  0xFFFFFF, 0x0, 0xFFFF0000, 0xFFFFFFFF, 0xFFFFFFFF, 0xF80001FF, 0x3, 0x0,
  0x0, 0x0, 0x0, 0x0, 0xFFFFD740, 0xFFFFFFFB, 0x547F7FFF, 0xFFFFD,
  0xFFFFDFFE, 0xFFFFFFFF, 0xDFFEFFFF, 0xFFFFFFFF, 0xFFFF0003, 0xFFFFFFFF, 0xFFFF199F, 0x33FCFFF,
  0x0, 0xFFFE0000, 0x27FFFFF, 0xFFFFFFFE, 0x7F, 0x0, 0xFFFF0000, 0x707FF,
  0x0, 0x7FFFFFE, 0x7FE, 0xFFFE0000, 0xFFFFFFFF, 0x7CFFFFFF, 0x2F7FFF, 0x60,
  0xFFFFFFE0, 0x23FFFFFF, 0xFF000000, 0x3, 0xFFF99FE0, 0x3C5FDFF, 0xB0000000, 0x30003,
  0xFFF987E0, 0x36DFDFF, 0x5E000000, 0x1C0000, 0xFFFBAFE0, 0x23EDFDFF, 0x0, 0x1,
  0xFFF99FE0, 0x23CDFDFF, 0xB0000000, 0x3, 0xD63DC7E0, 0x3BFC718, 0x0, 0x0,
  0xFFFDDFE0, 0x3EFFDFF, 0x0, 0x3, 0xFFFDDFE0, 0x3EFFDFF, 0x40000000, 0x3,
  0xFFFDDFE0, 0x3FFFDFF, 0x0, 0x3, 0x0, 0x0, 0x0, 0x0,
  0xFFFFFFFE, 0xD7FFF, 0x3F, 0x0, 0xFEF02596, 0x200D6CAE, 0x1F, 0x0,
  0x0, 0x0, 0xFFFFFEFF, 0x3FF, 0x0, 0x0, 0x0, 0x0,
  0x0, 0x0, 0x0, 0x0, 0x0, 0xFFFFFFFF, 0xFFFF003F, 0x7FFFFF,
  0x7DAED, 0x50000000, 0x82315001, 0x2C62AB, 0x40000000, 0xF580C900, 0x7, 0x2010800,
  0xFFFFFFFF, 0xFFFFFFFF, 0xFFFFFFFF, 0xFFFFFFFF, 0xFFFFFFF, 0xFFFFFFFF, 0xFFFFFFFF, 0x3FFFFFF,
  0x3F3FFFFF, 0xFFFFFFFF, 0xAAFF3F3F, 0x3FFFFFFF, 0xFFFFFFFF, 0x5FDFFFFF, 0xFCF1FDC, 0x1FDC1FFF,
  0x0, 0x4C40, 0x0, 0x0, 0x7, 0x0, 0x0, 0x0,
  0x80, 0x3FE, 0xFFFFFFFE, 0xFFFFFFFF, 0x1FFFFF, 0xFFFFFFFE, 0xFFFFFFFF, 0x7FFFFFF,
  0xFFFFFFE0, 0x1FFF, 0x0, 0x0, 0x0, 0x0, 0x0, 0x0,
  0xFFFFFFFF, 0xFFFFFFFF, 0xFFFFFFFF, 0xFFFFFFFF, 0xFFFFFFFF, 0x3F, 0x0, 0x0,
  0xFFFFFFFF, 0xFFFFFFFF, 0xFFFFFFFF, 0xFFFFFFFF, 0xFFFFFFFF, 0xF, 0x0, 0x0,
  0x0, 0x7FF6000, 0x87FFFFFE, 0x7FFFFFE, 0x0, 0x800000, 0xFF7FFFFF, 0xFF7FFFFF,
  0xFFFFFF, 0x0, 0xFFFF0000, 0xFFFFFFFF, 0xFFFFFFFF, 0xF80001FF, 0x30003, 0x0,
  0xFFFFFFFF, 0xFFFFFFFF, 0x3F, 0x3, 0xFFFFD7C0, 0xFFFFFFFB, 0x547F7FFF, 0xFFFFD,
  0xFFFFDFFE, 0xFFFFFFFF, 0xDFFEFFFF, 0xFFFFFFFF, 0xFFFF007B, 0xFFFFFFFF, 0xFFFF199F, 0x33FCFFF,
  0x0, 0xFFFE0000, 0x27FFFFF, 0xFFFFFFFE, 0xFFFE007F, 0xBBFFFFFB, 0xFFFF0016, 0x707FF,
  0x0, 0x7FFFFFE, 0x7FFFF, 0xFFFF03FF, 0xFFFFFFFF, 0x7CFFFFFF, 0xFFEF7FFF, 0x3FF3DFF,
  0xFFFFFFEE, 0xF3FFFFFF, 0xFF1E3FFF, 0xFFCF, 0xFFF99FEE, 0xD3C5FDFF, 0xB080399F, 0x3FFCF,
  0xFFF987E4, 0xD36DFDFF, 0x5E003987, 0x1FFFC0, 0xFFFBAFEE, 0xF3EDFDFF, 0x3BBF, 0xFFC1,
  0xFFF99FEE, 0xF3CDFDFF, 0xB0C0398F, 0xFFC3, 0xD63DC7EC, 0xC3BFC718, 0x803DC7, 0xFF80,
  0xFFFDDFEE, 0xC3EFFDFF, 0x603DDF, 0xFFC3, 0xFFFDDFEC, 0xC3EFFDFF, 0x40603DDF, 0xFFC3,
  0xFFFDDFEC, 0xC3FFFDFF, 0x803DCF, 0xFFC3, 0x0, 0x0, 0x0, 0x0,
  0xFFFFFFFE, 0x7FF7FFF, 0x3FF7FFF, 0x0, 0xFEF02596, 0x3BFF6CAE, 0x3FF3F5F, 0x0,
  0x3000000, 0xC2A003FF, 0xFFFFFEFF, 0xFFFE03FF, 0xFEBF0FDF, 0x2FE3FFF, 0x0, 0x0,
  0x0, 0x0, 0x0, 0x0, 0x0, 0x0, 0x1FFF0000, 0x2,
  0xA0, 0x3EFFFE, 0xFFFFFFFE, 0xFFFFFFFF, 0x661FFFFF, 0xFFFFFFFE, 0xFFFFFFFF, 0x77FFFFFF]

/-- nametab.rs:75 `nmstrtPages` -/
def nmstrtPages : List Nat := [
  0x2, 0x3, 0x4, 0x5, 0x6, 0x7, 0x8, 0x0,
  0x0, 0x9, 0xA, 0xB, 0xC, 0xD, 0xE, 0xF,
  0x10, 0x11, 0x0, 0x0, 0x0, 0x0, 0x0, 0x0,
  0x0, 0x0, 0x0, 0x0, 0x0, 0x0, 0x12, 0x13,
  0x0, 0x14, 0x0, 0x0, 0x0, 0x0, 0x0, 0x0,
  0x0, 0x0, 0x0, 0x0, 0x0, 0x0, 0x0, 0x0,
  0x15, 0x16, 0x0, 0x0, 0x0, 0x0, 0x0, 0x0,
  0x0, 0x0, 0x0, 0x0, 0x0, 0x0, 0x0, 0x0,
  0x0, 0x0, 0x0, 0x0, 0x0, 0x0, 0x0, 0x0,
  0x0, 0x0, 0x0, 0x0, 0x0, 0x0, 0x1, 0x1,
  0x1, 0x1, 0x1, 0x1, 0x1, 0x1, 0x1, 0x1,
  0x1, 0x1, 0x1, 0x1, 0x1, 0x1, 0x1, 0x1,
  0x1, 0x1, 0x1, 0x1, 0x1, 0x1, 0x1, 0x1,
  0x1, 0x1, 0x1, 0x1, 0x1, 0x1, 0x1, 0x1,
  0x1, 0x1, 0x1, 0x1, 0x1, 0x1, 0x1, 0x1,
  0x1, 0x1, 0x1, 0x1, 0x1, 0x1, 0x1, 0x1,
  0x1, 0x1, 0x1, 0x1, 0x1, 0x1, 0x1, 0x1,
  0x1, 0x1, 0x1, 0x1, 0x1, 0x1, 0x1, 0x1,
  0x1, 0x1, 0x1, 0x1, 0x1, 0x1, 0x1, 0x1,
  0x1, 0x1, 0x1, 0x1, 0x1, 0x1, 0x1, 0x17,
  0x0, 0x0, 0x0, 0x0, 0x0, 0x0, 0x0, 0x0,
  0x0, 0x0, 0x0, 0x0, 0x1, 0x1, 0x1, 0x1,
  0x1, 0x1, 0x1, 0x1, 0x1, 0x1, 0x1, 0x1,
  0x1, 0x1, 0x1, 0x1, 0x1, 0x1, 0x1, 0x1,
  0x1, 0x1, 0x1, 0x1, 0x1, 0x1, 0x1, 0x1,
  0x1, 0x1, 0x1, 0x1, 0x1, 0x1, 0x1, 0x1,
  0x1, 0x1, 0x1, 0x1, 0x1, 0x1, 0x1, 0x18,
  0x0, 0x0, 0x0, 0x0, 0x0, 0x0, 0x0, 0x0,
  0x0, 0x0, 0x0, 0x0, 0x0, 0x0, 0x0, 0x0,
  0x0, 0x0, 0x0, 0x0, 0x0, 0x0, 0x0, 0x0,
  0x0, 0x0, 0x0, 0x0, 0x0, 0x0, 0x0, 0x0,
  0x0, 0x0, 0x0, 0x0, 0x0, 0x0, 0x0, 0x0]

/-- nametab.rs:93 `namePages` -/
def namePages : List Nat := [
  0x19, 0x3, 0x1A, 0x1B, 0x1C, 0x1D, 0x1E, 0x0,
  0x0, 0x1F, 0x20, 0x21, 0x22, 0x23, 0x24, 0x25,
  0x10, 0x11, 0x0, 0x0, 0x0, 0x0, 0x0, 0x0,
  0x0, 0x0, 0x0, 0x0, 0x0, 0x0, 0x12, 0x13,
  0x26, 0x14, 0x0, 0x0, 0x0, 0x0, 0x0, 0x0,
  0x0, 0x0, 0x0, 0x0, 0x0, 0x0, 0x0, 0x0,
  0x27, 0x16, 0x0, 0x0, 0x0, 0x0, 0x0, 0x0,
  0x0, 0x0, 0x0, 0x0, 0x0, 0x0, 0x0, 0x0,
  0x0, 0x0, 0x0, 0x0, 0x0, 0x0, 0x0, 0x0,
  0x0, 0x0, 0x0, 0x0, 0x0, 0x0, 0x1, 0x1,
  0x1, 0x1, 0x1, 0x1, 0x1, 0x1, 0x1, 0x1,
  0x1, 0x1, 0x1, 0x1, 0x1, 0x1, 0x1, 0x1,
  0x1, 0x1, 0x1, 0x1, 0x1, 0x1, 0x1, 0x1,
  0x1, 0x1, 0x1, 0x1, 0x1, 0x1, 0x1, 0x1,
  0x1, 0x1, 0x1, 0x1, 0x1, 0x1, 0x1, 0x1,
  0x1, 0x1, 0x1, 0x1, 0x1, 0x1, 0x1, 0x1,
  0x1, 0x1, 0x1, 0x1, 0x1, 0x1, 0x1, 0x1,
  0x1, 0x1, 0x1, 0x1, 0x1, 0x1, 0x1, 0x1,
  0x1, 0x1, 0x1, 0x1, 0x1, 0x1, 0x1, 0x1,
  0x1, 0x1, 0x1, 0x1, 0x1, 0x1, 0x1, 0x17,
  0x0, 0x0, 0x0, 0x0, 0x0, 0x0, 0x0, 0x0,
  0x0, 0x0, 0x0, 0x0, 0x1, 0x1, 0x1, 0x1,
  0x1, 0x1, 0x1, 0x1, 0x1, 0x1, 0x1, 0x1,
  0x1, 0x1, 0x1, 0x1, 0x1, 0x1, 0x1, 0x1,
  0x1, 0x1, 0x1, 0x1, 0x1, 0x1, 0x1, 0x1,
  0x1, 0x1, 0x1, 0x1, 0x1, 0x1, 0x1, 0x1,
  0x1, 0x1, 0x1, 0x1, 0x1, 0x1, 0x1, 0x18,
  0x0, 0x0, 0x0, 0x0, 0x0, 0x0, 0x0, 0x0,
  0x0, 0x0, 0x0, 0x0, 0x0, 0x0, 0x0, 0x0,
  0x0, 0x0, 0x0, 0x0, 0x0, 0x0, 0x0, 0x0,
  0x0, 0x0, 0x0, 0x0, 0x0, 0x0, 0x0, 0x0,
  0x0, 0x0, 0x0, 0x0, 0x0, 0x0, 0x0, 0x0]

end Verif.Tables
