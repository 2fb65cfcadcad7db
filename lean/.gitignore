.lake/
/lake-manifest.json
