.lake/
lake-manifest.json
tools/deps.json
